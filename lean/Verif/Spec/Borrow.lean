import Verif.Model.Borrow
/-
Specification: a caller of a writer, and calls made through references to the writer.
-/

namespace Stylish.Spec

/-- One call of a method of `stylish::Write`. -/
inductive WriteOp where
  | writeStr (s : Str) (style : Style)
  | writeChar (c : Char) (style : Style)
  | writeFmt (args : Arguments)

/-- Make the call on `w` itself. -/
def WriteOp.on {W : Type} [WriteTrait W] : WriteOp → Act W FmtError Unit
  | .writeStr s style => Write.writeStr s style
  | .writeChar c style => WriteTrait.writeChar c style
  | .writeFmt args => WriteTrait.writeFmt args

/-- Make the call on `&mut &mut … w`, with `n` references; they are gone when it returns. -/
def WriteOp.through : Nat → {W : Type} → [WriteTrait W] → WriteOp → Act W FmtError Unit
  | 0, _, _, op => op.on
  | n + 1, W, _, op => fun w =>
    ((op.through n (MutRef.mk w)).1, ((op.through n (MutRef.mk w) : _ × MutRef W).2).place)

/-- A caller: whatever it does next may depend on the results it got so far. -/
inductive Caller where
  | stop
  | call (op : WriteOp) (next : Res FmtError Unit → Caller)

/-- Let the caller loose on `w`, its calls going through as many references as `refs` says (one number per
call): the results it saw, and what became of `w`. -/
def Caller.run {W : Type} [WriteTrait W] : Caller → (refs : Nat → Nat) → W → List (Res FmtError Unit) × W
  | .stop, _, w => ([], w)
  | .call op next, refs, w =>
    let r := op.through (refs 0) w
    let after := (next r.1).run (fun i => refs (i + 1)) r.2
    (r.1 :: after.1, after.2)

/-- One call of a method of `stylish::io::Write`. -/
inductive IoOp where
  | write (s : Bytes) (style : Style)
  | flush
  | writeAll (s : Bytes) (style : Style)
  | writeFmt (args : Arguments)

/-- Make the call on `w` itself. The result of `write` is a number, that of the others is `()`. -/
def IoOp.on {W : Type} [IoWriteTrait W] : IoOp → Act W IoError (Option Nat)
  | .write s style => do return some (← IoWrite.write s style)
  | .flush => do IoWrite.flush; return none
  | .writeAll s style => do IoWrite.writeAll s style; return none
  | .writeFmt args => do IoWriteTrait.writeFmt args; return none

/-- Make the call through `n` references (`&mut w`, or what `by_ref` returns). -/
def IoOp.through : Nat → {W : Type} → [IoWriteTrait W] → IoOp → Act W IoError (Option Nat)
  | 0, _, _, op => op.on
  | n + 1, W, _, op => fun w =>
    ((op.through n (IoWrite.byRef w)).1, ((op.through n (IoWrite.byRef w) : _ × MutRef W).2).place)

/-- A caller of an io writer. -/
inductive IoCaller where
  | stop
  | call (op : IoOp) (next : Res IoError (Option Nat) → IoCaller)

/-- As `Caller.run`. -/
def IoCaller.run {W : Type} [IoWriteTrait W] :
    IoCaller → (refs : Nat → Nat) → W → List (Res IoError (Option Nat)) × W
  | .stop, _, w => ([], w)
  | .call op next, refs, w =>
    let r := op.through (refs 0) w
    let after := (next r.1).run (fun i => refs (i + 1)) r.2
    (r.1 :: after.1, after.2)

end Stylish.Spec
