import Verif.Spec.Borrow
import Verif.Props.Formatter
import Verif.Props.Io
/-
Properties of borrowed writers: C62.
-/

namespace Stylish.Props

open Spec

variable {W : Type}

/-- One call through any number of references is the call itself. -/
theorem through_eq_on (n : Nat) [WriteTrait W] (op : WriteOp) (w : W) : op.through n w = op.on w := by
  induction n generalizing W with
  | zero => rfl
  | succ n ih =>
    simp only [WriteOp.through, ih]
    cases op <;> rfl

/-- One call through any number of references is the call itself. -/
theorem io_through_eq_on (n : Nat) [IoWriteTrait W] (op : IoOp) (w : W) : op.through n w = op.on w := by
  induction n generalizing W with
  | zero => rfl
  | succ n ih =>
    simp only [IoOp.through, ih, IoWrite.byRef]
    cases op with
    | write s style =>
      simp only [IoOp.on, Act.bind_apply]
      show _ = match IoWrite.write s style w with | _ => _
      have e : IoWrite.write s style (MutRef.mk w) =
        ((IoWrite.write s style w).1, ⟨(IoWrite.write s style w).2⟩) := rfl
      rw [e]
      rcases IoWrite.write s style w with ⟨r, w'⟩
      cases r <;> rfl
    | flush =>
      simp only [IoOp.on, Act.bind_apply]
      have e : IoWrite.flush (MutRef.mk w) =
        ((IoWrite.flush w).1, ⟨(IoWrite.flush w).2⟩) := rfl
      rw [e]
      rcases IoWrite.flush w with ⟨r, w'⟩
      cases r <;> rfl
    | writeAll s style =>
      simp only [IoOp.on, Act.bind_apply]
      have e : IoWrite.writeAll s style (MutRef.mk w) =
        ((IoWrite.writeAll s style w).1, ⟨(IoWrite.writeAll s style w).2⟩) := rfl
      rw [e]
      rcases IoWrite.writeAll s style w with ⟨r, w'⟩
      cases r <;> rfl
    | writeFmt args =>
      simp only [IoOp.on, Act.bind_apply]
      have e : IoWriteTrait.writeFmt args (MutRef.mk w) =
        ((IoWriteTrait.writeFmt args w).1, ⟨(IoWriteTrait.writeFmt args w).2⟩) := rfl
      rw [e]
      rcases IoWriteTrait.writeFmt args w with ⟨r, w'⟩
      cases r <;> rfl

/-- C62: whatever a caller does with a writer, and however the writer implements its methods, it sees the
same results and leaves the writer in the same state whether it makes its calls on the writer itself or
each through some number of `&mut` references to it. -/
theorem C62_borrowed_writer [WriteTrait W] (caller : Caller) (refs : Nat → Nat) (w : W) :
    caller.run refs w = caller.run (fun _ => 0) w := by
  induction caller generalizing refs w with
  | stop => rfl
  | call op next ih =>
    simp only [Caller.run, through_eq_on]
    rw [ih]

/-- C62, for `stylish::io::Write`: the same for `write`, `flush`, `write_all` and `write_fmt`. -/
theorem C62_borrowed_io_writer [IoWriteTrait W] (caller : IoCaller) (refs : Nat → Nat) (w : W) :
    caller.run refs w = caller.run (fun _ => 0) w := by
  induction caller generalizing refs w with
  | stop => rfl
  | call op next ih =>
    simp only [IoCaller.run, io_through_eq_on]
    rw [ih]

/-- The relation between a reference and the place it refers to. -/
theorem mutRef_run [Write W] (d : Disp) (st : Style) (a : FormatterArgs) (w : W) :
    (d.run ⟨st, a, MutRef.mk w⟩).1 = (d.run ⟨st, a, w⟩).1 ∧
    (d.run ⟨st, a, MutRef.mk w⟩).2.write.place = (d.run ⟨st, a, w⟩).2.write :=
  Disp.run_sim (fun (m : MutRef W) w => m.place = w)
    (fun s st m w h => by subst h; exact ⟨rfl, rfl⟩) d st a _ w rfl

theorem writeFmtByRef_eq [Write W] (args : Arguments) (w : W) :
    Write.writeFmtByRef args w = Write.writeFmt args w := by
  simp only [Write.writeFmtByRef, Write.writeFmt, (C09_write_fmt args).2]
  have h := mutRef_run args.f Style.default FormatterArgs.default w
  exact Prod.ext h.1 h.2

/-- C62: a writer that does not override `write_fmt` runs the arguments from the default style and options
with its own `write_str`; that the provided method hands the formatter a reference to a reference cannot be
seen. -/
theorem C62_provided_write_fmt [Write W] (args : Arguments) (w : W) :
    Write.writeFmtByRef args w =
      ((args.f.run ⟨⟨.Default, .Default, .Normal⟩, ⟨none, none, false, false, none, none, none⟩, w⟩).1,
       (args.f.run ⟨⟨.Default, .Default, .Normal⟩, ⟨none, none, false, false, none, none, none⟩,
        w⟩).2.write) := by
  rw [writeFmtByRef_eq, (C09_write_fmt args).1]

/-- C62, for `stylish::io::Write`: `write_fmt` behaves as if the writer itself, not a reference to it, were
in the error trap. -/
theorem C62_provided_io_write_fmt [IoWrite W] (args : Arguments) (w : W) :
    IoWrite.writeFmtByRef args w = IoWrite.writeFmt args w := by
  have h := Disp.run_sim (W := ErrorTrap (MutRef W)) (V := ErrorTrap W)
    (fun t u => t.inner.place = u.inner ∧ t.error = u.error)
    (fun s st t u h => by
      rcases t with ⟨⟨t⟩, e⟩
      rcases u with ⟨u, e'⟩
      obtain ⟨h1, h2⟩ := h
      simp only at h1 h2
      subst h1 h2
      have e2 : IoWrite.writeAll (utf8 s) st (MutRef.mk t) =
        ((IoWrite.writeAll (utf8 s) st t).1, ⟨(IoWrite.writeAll (utf8 s) st t).2⟩) := rfl
      simp only [Write.writeStr]
      rw [e2]
      rcases IoWrite.writeAll (utf8 s) st t with ⟨r, t'⟩
      cases r <;> exact ⟨rfl, rfl, rfl⟩)
    args.f Style.default FormatterArgs.default (ErrorTrap.new (MutRef.mk w)) (ErrorTrap.new w) ⟨rfl, rfl⟩
  have e1 : ∀ t : ErrorTrap (MutRef W), WriteTrait.writeFmt args t = Write.writeFmt args t :=
    fun t => writeFmtByRef_eq args t
  simp only [IoWrite.writeFmtByRef, IoWrite.writeFmt, e1, (C09_write_fmt args).1]
  rcases hx : args.f.run ⟨⟨.Default, .Default, .Normal⟩, ⟨none, none, false, false, none, none, none⟩,
    ErrorTrap.new (MutRef.mk w)⟩ with ⟨r, f⟩
  rcases hy : args.f.run ⟨⟨.Default, .Default, .Normal⟩, ⟨none, none, false, false, none, none, none⟩,
    ErrorTrap.new w⟩ with ⟨r', f'⟩
  have hS : Style.default = ⟨.Default, .Default, .Normal⟩ := rfl
  have hF : FormatterArgs.default = ⟨none, none, false, false, none, none, none⟩ := rfl
  rw [hS, hF, hx, hy] at h
  obtain ⟨h1, h2, h3⟩ := h
  simp only at h1 h2 h3
  subst h1
  cases r <;> simp only [ErrorTrap.takeError, h2, h3]

/-- C62: through any number of references, `write_fmt` on a formatter formats in that formatter's own style
and options, while `write_str` and `write_char` write in exactly the style they are given. -/
theorem C62_borrowed_formatter [Write W] (n : Nat) (f : Formatter W) (args : Arguments) (s : Str) (c : Char)
    (style : Style) :
    (WriteOp.writeFmt args).through n f = args.f.run f ∧
    (WriteOp.writeStr s style).through n f =
      ((Write.writeStr s style f.write).1, { f with write := (Write.writeStr s style f.write).2 }) ∧
    (WriteOp.writeChar c style).through n f =
      ((Write.writeStr [c] style f.write).1, { f with write := (Write.writeStr [c] style f.write).2 }) := by
  refine ⟨?_, ?_, ?_⟩ <;> rw [through_eq_on]
  · exact (C09_write_fmt args).2 f
  · exact C09_formatter_as_writer s style f
  · exact C09_formatter_as_writer [c] style f

/-! ## Examples -/

/-- A caller that writes `x` in red and then, only if that worked, runs the sample program. -/
def sampleCaller : Caller :=
  .call (.writeChar 'x' ⟨.Red, .Default, .Normal⟩) fun r =>
    if r = .ok () then .call (.writeFmt ⟨sampleProg⟩) fun _ => .stop else .stop

instance : WriteTrait LogWriter where
instance : WriteTrait FailingWriter where

example : sampleCaller.run (fun i => i + 2) (LogWriter.mk []) =
    ([.ok (), .ok ()], LogWriter.mk [(['x'], ⟨.Red, .Default, .Normal⟩), (['a'], Style.default),
      (['b'], ⟨.Red, .Default, .Bold⟩), (['c'], Style.default)]) := by decide +kernel

example : sampleCaller.run (fun i => 3 - i) (FailingWriter.mk 2 []) =
    ([.ok (), .err ()], FailingWriter.mk 0 [(['x'], ⟨.Red, .Default, .Normal⟩), (['a'], Style.default)]) := by
  decide +kernel

/-- On a blue formatter the sample program is run in blue, also through references. -/
example : ((WriteOp.writeFmt ⟨sampleProg⟩).through 2
      (Formatter.mk ⟨.Blue, .Default, .Normal⟩ FormatterArgs.default (LogWriter.mk []))).2.write.log =
    [(['a'], ⟨.Blue, .Default, .Normal⟩), (['b'], ⟨.Red, .Default, .Bold⟩),
      (['c'], ⟨.Blue, .Default, .Normal⟩)] := by decide +kernel

/-- A caller that makes one short `write`, then formats, and flushes if that failed. -/
def sampleIoCaller : IoCaller :=
  .call (.write [65, 66, 67] Style.default) fun _ =>
    .call (.writeFmt ⟨sampleProg⟩) fun r => match r with
      | .err _ => .call .flush fun _ => .stop
      | _ => .stop

example : sampleIoCaller.run (fun i => 2 * i + 1)
      (IoPlain.new ⟨[.accept 2, .interrupt, .accept 1, .fail 5], []⟩ : IoPlain 9 ScriptSink) =
    ([.ok (some 2), .err (osError 5), .ok none], ⟨⟨[], [65, 66, 97]⟩⟩) := by decide +kernel

end Stylish.Props
