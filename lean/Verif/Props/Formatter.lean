import Verif.Lemmas.Formatter
/-
Properties of the formatter: C06, C07, C09.
-/

namespace Stylish.Props

open Spec

/-! ## Example writers used in the non-vacuity checks -/

/-- A writer that accepts everything and logs it. -/
structure LogWriter where
  log : List Chunk
  deriving DecidableEq

instance : Write LogWriter := ⟨fun s st w => (.ok (), ⟨w.log ++ [(s, st)]⟩)⟩

theorem logWriter_accepting : Accepting LogWriter := fun _ _ _ => rfl

/-- A writer that fails from its `n`-th write on. -/
structure FailingWriter where
  n : Nat
  log : List Chunk
  deriving DecidableEq

instance : Write FailingWriter := ⟨fun s st w =>
  match w.n with
  | 0 => (.err (), w)
  | n + 1 => (.ok (), ⟨n, w.log ++ [(s, st)]⟩)⟩

/-- An example program: writes `a`, then `b` in bold red, looks at its options, then writes `c`. -/
def sampleProg : Disp :=
  .writeStr ['a'] (Disp.try_ <|
    .within (.of (Pair.mk (Foreground.mk .Red) Intensity.Bold))
      (.writeStr ['b'] .done) <| Disp.try_ <|
    .inspect fun _ args =>
      if args.alternate then .writeStr ['#'] .done else .writeStr ['c'] .done)

/-! ## C06 -/

/-- C06: there is one sequence of writes and one outcome, determined by the program and by the style and
options it is started with, such that on every writer that accepts all writes the program has that
outcome and leaves that writer as if exactly these writes had been made on it, one by one; the formatter
itself is left as it was. -/
theorem C06_writes_independent_of_writer (d : Disp) (style : Style) (args : FormatterArgs) :
    ∃ (log : List Chunk) (out : Res FmtError Unit),
      ∀ (W : Type) [Write W], Accepting W → ∀ w : W,
        d.run ⟨style, args, w⟩ = (out, ⟨style, args, (writeChunks log w).2⟩) ∧
        (writeChunks log w).1 = .ok () :=
  ⟨(writes d style args).1, (writes d style args).2, fun W _ hW w =>
    ⟨Disp.run_accepting hW d style args w, by rw [Accepting.writeChunks hW]⟩⟩

/-- C06, for writers that may fail: as long as the program propagates errors, the writes it makes are that
same sequence, cut off by the first failing write, whose result is then the program's result. -/
theorem C06_writes_until_failure (d : Disp) (hd : Propagates d) (style : Style)
    (args : FormatterArgs) :
    ∃ (log : List Chunk) (out : Res FmtError Unit),
      ∀ (W : Type) [Write W] (w : W),
        (d.run ⟨style, args, w⟩).2 = ⟨style, args, (writeChunks log w).2⟩ ∧
        ((writeChunks log w).1 = .ok () → (d.run ⟨style, args, w⟩).1 = out) ∧
        ((writeChunks log w).1 ≠ .ok () → (d.run ⟨style, args, w⟩).1 = (writeChunks log w).1) := by
  refine ⟨(writes d style args).1, (writes d style args).2, fun W _ w => ?_⟩
  have h := Disp.run_propagates d hd style args w
  rcases hc : writeChunks (writes d style args).1 w with ⟨r, w'⟩
  rw [hc] at h
  have h1 : (d.run ⟨style, args, w⟩).2.write = w' := by
    cases r <;> simp only [afterChunks] at h <;> exact (Prod.mk.inj h).2
  refine ⟨?_, ?_, ?_⟩
  · rw [Disp.run_eta]; simp [h1]
  · intro he
    simp only at he
    subst he
    exact (Prod.mk.inj h).1
  · intro hne
    cases r with
    | ok u => exact absurd rfl hne
    | err e => exact (Prod.mk.inj h).1
    | panic => exact (Prod.mk.inj h).1
    | diverge => exact (Prod.mk.inj h).1

example : Accepting LogWriter ∧
    (sampleProg.run ⟨Style.default, FormatterArgs.default, LogWriter.mk []⟩).2.write.log =
      [(['a'], Style.default), (['b'], ⟨.Red, .Default, .Bold⟩), (['c'], Style.default)] ∧
    (sampleProg.run ⟨Style.default, { FormatterArgs.default with alternate := true },
      LogWriter.mk []⟩).2.write.log =
      [(['a'], Style.default), (['b'], ⟨.Red, .Default, .Bold⟩), (['#'], Style.default)] :=
  ⟨logWriter_accepting, by decide, by decide⟩

example : Propagates sampleProg := by
  refine ⟨rfl, ⟨rfl, trivial⟩, rfl, fun _ args => ?_⟩
  show Propagates (if args.alternate then _ else _)
  split <;> exact ⟨rfl, trivial⟩

example : ((sampleProg.run ⟨Style.default, FormatterArgs.default, FailingWriter.mk 1 []⟩).1,
    (sampleProg.run ⟨Style.default, FormatterArgs.default, FailingWriter.mk 1 []⟩).2.write.log) =
    (.err (), [(['a'], Style.default)]) := by decide

/-! ## C07 -/

/-- C07: running any Display program leaves the formatter's style and options as they were, whatever
sub-formatters it made, whatever the writer did and however the program ended. -/
theorem C07_formatter_restored {W : Type} [Write W] (d : Disp) (f : Formatter W) :
    (d.run f).2.style = f.style ∧ (d.run f).2.format = f.format :=
  d.run_frame f

/-- C07: what is done through the sub-formatter `f.with(r)` is what would be done on a fresh formatter
with the restyled style, the same options and the same writer; what is done afterwards through `f` is
what would be done on a fresh formatter with `f`'s old style and options and the writer as it is now. -/
theorem C07_with_scoped {W : Type} [Write W] {α : Type} [Restyle α] (r : α) (body : Disp)
    (rest : FmtResult → Disp) (style : Style) (args : FormatterArgs) (w : W) :
    (Disp.within (.of r) body rest).run ⟨style, args, w⟩ =
      match body.run ⟨Restyle.apply r style, args, w⟩ with
      | (.ok (), sub) => (rest .ok).run ⟨style, args, sub.write⟩
      | (.err (), sub) => (rest .err).run ⟨style, args, sub.write⟩
      | (.panic, sub) => (.panic, ⟨style, args, sub.write⟩)
      | (.diverge, sub) => (.diverge, ⟨style, args, sub.write⟩) := by
  have e : style.with (DynRestyle.of r) = Restyle.apply r style := rfl
  simp only [Disp.run, Formatter.with, Formatter.endBorrow, e]
  rcases body.run ⟨Restyle.apply r style, args, w⟩ with ⟨res, sub⟩
  cases res <;> rfl

/-- C07: the same for `f.with_args(a, r)`: style and options are scoped. -/
theorem C07_with_args_scoped {W : Type} [Write W] {α : Type} [Restyle α] (a : FormatterArgs) (r : α)
    (body : Disp) (rest : FmtResult → Disp) (style : Style) (args : FormatterArgs) (w : W) :
    (Disp.withinArgs a (.of r) body rest).run ⟨style, args, w⟩ =
      match body.run ⟨Restyle.apply r style, a, w⟩ with
      | (.ok (), sub) => (rest .ok).run ⟨style, args, sub.write⟩
      | (.err (), sub) => (rest .err).run ⟨style, args, sub.write⟩
      | (.panic, sub) => (.panic, ⟨style, args, sub.write⟩)
      | (.diverge, sub) => (.diverge, ⟨style, args, sub.write⟩) := by
  have e : style.with (DynRestyle.of r) = Restyle.apply r style := rfl
  simp only [Disp.run, Formatter.withArgs, Formatter.endBorrow, e]
  rcases body.run ⟨Restyle.apply r style, a, w⟩ with ⟨res, sub⟩
  cases res <;> rfl

/-- C07: the style a write carries is the composition of exactly the restylings of the sub-formatters it
is nested in, outermost first: wrapping a program in any stack of `with`s is the same as one `with` of
the slice of them. -/
theorem C07_nested_with {W : Type} [Write W] (rs : List DynRestyle) (body : Disp)
    (style : Style) (args : FormatterArgs) (w : W) :
    ((rs.foldr (fun r b => Disp.within r b .done) body).run ⟨style, args, w⟩) =
      ((body.run ⟨style.with rs, args, w⟩).1, ⟨style, args, (body.run ⟨style.with rs, args, w⟩).2.write⟩) := by
  induction rs generalizing style with
  | nil => exact body.run_eta _
  | cons r rs ih =>
    simp only [List.foldr_cons, Disp.run, Formatter.with, Formatter.endBorrow, ih]
    have e : style.with (r :: rs) = (style.with r).with rs := rfl
    rw [e]
    rcases body.run ⟨(style.with r).with rs, args, w⟩ with ⟨res, f⟩
    cases res <;> rfl

example : ((sampleProg.run ⟨⟨.Green, .Default, .Normal⟩, FormatterArgs.default,
    LogWriter.mk []⟩).2.write.log) =
      [(['a'], ⟨.Green, .Default, .Normal⟩), (['b'], ⟨.Red, .Default, .Bold⟩),
       (['c'], ⟨.Green, .Default, .Normal⟩)] := by decide

/-! ## C09 -/

/-- C09: `write_char` writes the one-character string. -/
theorem C09_write_char {W : Type} [Write W] (c : Char) (style : Style) (w : W) :
    Write.writeChar c style w = Write.writeStr [c] style w := rfl

/-- C09: a formatter used as a writer writes with exactly the given style to its own writer, whatever its
own style, and is otherwise unchanged. -/
theorem C09_formatter_as_writer {W : Type} [Write W] (s : Str) (style : Style) (f : Formatter W) :
    Write.writeStr s style f =
      ((Write.writeStr s style f.write).1,
       ⟨f.style, f.format, (Write.writeStr s style f.write).2⟩) := by
  show (let (r, sub) := Formatter.writeStr s (f.with style); (r, f.endBorrow sub)) = _
  rw [Formatter.writeStr_eq]
  rfl

/-- C09: and `write_str` on the formatter itself writes with the formatter's style. -/
theorem C09_formatter_write_str {W : Type} [Write W] (s : Str) (f : Formatter W) :
    Formatter.writeStr s f =
      ((Write.writeStr s f.style f.write).1,
       ⟨f.style, f.format, (Write.writeStr s f.style f.write).2⟩) :=
  Formatter.writeStr_eq s f

/-- C09: `write_fmt` on a writer runs the arguments from the default style and default options, and
`write_fmt` on a formatter runs them from that formatter's own style and options. -/
theorem C09_write_fmt {W : Type} [Write W] (args : Arguments) :
    (∀ w : W, Write.writeFmt args w =
      ((args.f.run ⟨⟨.Default, .Default, .Normal⟩, ⟨none, none, false, false, none, none, none⟩, w⟩).1,
       (args.f.run ⟨⟨.Default, .Default, .Normal⟩, ⟨none, none, false, false, none, none, none⟩,
        w⟩).2.write)) ∧
    (∀ f : Formatter W, Formatter.writeFmt args f = args.f.run f) := by
  have key : ∀ f : Formatter W, Formatter.writeFmt args f = args.f.run f := by
    intro f
    simp only [Formatter.writeFmt, Act.bind_apply]
    show (match args.f.run f with | _ => _) = args.f.run f
    rcases args.f.run f with ⟨r, f'⟩
    cases r <;> rfl
  refine ⟨fun w => ?_, key⟩
  simp only [Write.writeFmt, key]
  rfl

/-- C09: displaying through a formatter used as a writer is displaying through a fresh formatter (default
style) on the underlying writer. -/
theorem C09_write_fmt_through_formatter {W : Type} [Write W] (args : Arguments) (f : Formatter W) :
    (Write.writeFmt args f).1 = (Write.writeFmt args f.write).1 ∧
    (Write.writeFmt args f).2 = { f with write := (Write.writeFmt args f.write).2 } := by
  simp only [(C09_write_fmt args).1]
  have h := Disp.run_sim (W := Formatter W) (V := W)
    (fun g w => g = { f with write := w })
    (fun s st g w hg => by
      rw [C09_formatter_as_writer]
      subst hg
      exact ⟨rfl, rfl⟩)
    args.f ⟨.Default, .Default, .Normal⟩ ⟨none, none, false, false, none, none, none⟩ f f.write rfl
  exact h

example : (Write.writeStr ['x'] ⟨.Red, .Default, .Normal⟩
    (Formatter.mk ⟨.Blue, .Blue, .Bold⟩ FormatterArgs.default (LogWriter.mk []))).2.write.log =
    [(['x'], ⟨.Red, .Default, .Normal⟩)] := by decide

end Stylish.Props
