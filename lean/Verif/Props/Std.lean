import Verif.Lemmas.Formatter
import Verif.Lemmas.StdProxy
import Verif.Spec.Std
import Verif.Props.Formatter
/-
Properties of the std compatibility layer: C31, C32.
-/

namespace Stylish.Props

open Spec

/-! ## C31 -/

/-- C31 (`Display`, `Octal`, `LowerHex`, ... : every trait but `Debug`): the std formatter has exactly the
options of the stylish formatter, a space as fill, no debug-hex option, and it is not the `Debug` method
that is called. -/
theorem C31_options_forwarded_other (a : FormatterArgs) :
    stdOptsOf .Other a = some
      { fill := ' ', align := a.align, sign := a.sign, alternate := a.alternate, zero := a.zero,
        width := a.width, precision := a.precision, debugHex := none, debug := false } := by
  rw [stdOptsOf_tail, readTail_other]; rfl

/-- C31 (`Debug`): the same, with the debug-hex option as written, calling the `Debug` method. -/
theorem C31_options_forwarded_debug (a : FormatterArgs) :
    stdOptsOf .Debug a = some
      { fill := ' ', align := a.align, sign := a.sign, alternate := a.alternate, zero := a.zero,
        width := a.width, precision := a.precision, debugHex := a.debugHex, debug := true } := by
  rw [stdOptsOf_tail, readTail_debug]; rfl

/-- A width and precision that `usize` holds but no sample would. -/
example : stdOptsOf .Debug ⟨some .Center, some .Plus, true, true, some 18446744073709551615, some 77,
      some .Upper⟩ =
    some ⟨' ', some .Center, some .Plus, true, true, some 18446744073709551615, some 77, some .Upper, true⟩ :=
  C31_options_forwarded_debug _

/-! ## C32 -/

/-- C32: what an argument formatted through a std trait writes are the strings its std formatting writes
(with the options of C31), each in the style of the formatter it is given, and it ends as that does. -/
theorem C32_uniform_style (kind : StdKind) (arg : StdFmt) (st : Style) (a : FormatterArgs) :
    writes (stdWrite kind arg) st a =
      ((stdWrites (arg.f (stdView kind a))).1.map (fun s => (s, st)),
        (stdWrites (arg.f (stdView kind a))).2) :=
  writes_stdWrite _ _ _ _

/-- C32: on any writer, also one that fails: running it is running the std formatting with each string
going to the writer in that style, and the std formatting sees each write's own result. -/
theorem C32_any_writer {W : Type} [Write W] (kind : StdKind) (arg : StdFmt) (st : Style)
    (a : FormatterArgs) (w : W) :
    (stdWrite kind arg).run ⟨st, a, w⟩ =
      ((stdRun (fun s => Write.writeStr s st) (arg.f (stdView kind a)) w).1,
        ⟨st, a, (stdRun (fun s => Write.writeStr s st) (arg.f (stdView kind a)) w).2⟩) :=
  run_stdWrite _ _ _ _ _

/-- C32: in a placeholder the style is the surrounding style restyled by the placeholder's attributes. -/
theorem C32_placeholder {α : Type} [Restyle α] (kind : StdKind) (arg : StdFmt) (args : FormatterArgs)
    (attrs : α) (st : Style) (a : FormatterArgs) :
    writes (.withinArgs args (.of attrs) (stdWrite kind arg) .done) st a =
      ((stdWrites (arg.f (stdView kind args))).1.map (fun s => (s, st.with attrs)),
        (stdWrites (arg.f (stdView kind args))).2) := by
  have e : st.with (DynRestyle.of attrs) = st.with attrs := rfl
  simp only [writes, C32_uniform_style, e]
  rcases (stdWrites (arg.f (stdView kind args))) with ⟨l, r⟩
  cases r with
  | ok u => simp [ended]
  | err u => simp [ended]
  | panic => rfl
  | diverge => rfl

/-- C32 on any writer, also one that fails: in a placeholder every string of the std formatting goes to the
writer in the surrounding style restyled by the attributes, and afterwards the formatter is as it was. -/
theorem C32_placeholder_any_writer {α W : Type} [Restyle α] [Write W] (kind : StdKind) (arg : StdFmt)
    (args : FormatterArgs) (attrs : α) (st : Style) (a : FormatterArgs) (w : W) :
    (Disp.withinArgs args (.of attrs) (stdWrite kind arg) .done).run ⟨st, a, w⟩ =
      ((stdRun (fun s => Write.writeStr s (st.with attrs)) (arg.f (stdView kind args)) w).1,
        ⟨st, a, (stdRun (fun s => Write.writeStr s (st.with attrs)) (arg.f (stdView kind args)) w).2⟩) := by
  have e : st.with (DynRestyle.of attrs) = st.with attrs := rfl
  have h : ∀ d : Disp, (Disp.withinArgs args (.of attrs) d .done).run ⟨st, a, w⟩ =
      resume ((d.run ⟨st.with (DynRestyle.of attrs), args, w⟩).1,
        ⟨st, a, (d.run ⟨st.with (DynRestyle.of attrs), args, w⟩).2.write⟩)
        (fun r => (Disp.done r).run) := fun d => rfl
  rw [h, C32_any_writer, e]
  rcases stdRun (fun s => Write.writeStr s (st.with attrs)) (arg.f (stdView kind args)) w with ⟨r, w'⟩
  cases r <;> rfl

/-- Example: a value that pads itself writes the padding and the text separately; both get the style. -/
example : writes (.withinArgs ⟨some .Right, none, false, false, some 3, none, none⟩
      (.of (Pair.mk (Foreground.mk .Red) Intensity.Bold))
      (stdWrite .Other ⟨fun o => .write (List.replicate (o.width.getD 0) o.fill) (fun
        | .ok => .write ['x'] .done
        | .err => .done .err)⟩) .done) Style.default FormatterArgs.default =
    ([([' ', ' ', ' '], ⟨.Red, .Default, .Bold⟩), (['x'], ⟨.Red, .Default, .Bold⟩)], .ok ()) := by
  rw [C32_placeholder]; rfl

end Stylish.Props
