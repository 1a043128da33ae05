import Verif.Model.Expand
/-
Values with a state of their own: a `Display` implementation (or one of std's traits) takes `&self`, but may still read
and change something outside the writer while it is shown, through a `Cell`, an atomic counter, a lock: a counter, a
cache, an iterator that is used up by showing it (itertools' `format`). All that lies outside the writer is one state
`S` here. This is the same code as in Formatter.lean, StdWrite.lean and Expand.lean, run for such values; what the macro
generates (`Expansion`, `Stmt`) is the same data.
-/

namespace Stylish

open Nom Format

/-- The body of a `stylish::Display` implementation, as in Formatter.lean (core/src/display.rs:29-53), with two more
steps: look at the state, and change it. -/
inductive LiveDisp (S : Type) where
  | done (r : FmtResult)
  | panic
  | get (k : S → LiveDisp S)
  | set (s : S) (next : LiveDisp S)
  | writeStr (t : Str) (k : FmtResult → LiveDisp S)
  | within (r : DynRestyle) (body : LiveDisp S) (k : FmtResult → LiveDisp S)
  | withinArgs (a : FormatterArgs) (r : DynRestyle) (body : LiveDisp S) (k : FmtResult → LiveDisp S)
  | inspect (k : Style → FormatterArgs → LiveDisp S)

variable {S : Type}

/-- `Display::fmt(&x, f)` (core/src/display.rs:52) for such a value; `with`, `with_args` and `write_str` are those of
Formatter.lean (core/src/formatter.rs:96-116, 142-145). -/
def LiveDisp.run {W : Type} [Write W] : LiveDisp S → Act (Formatter W × S) FmtError Unit
  | .done r => fun p => (r.toRes, p)
  | .panic => fun p => (.panic, p)
  | .get k => fun p => (k p.2).run p
  | .set s next => fun p => next.run (p.1, s)
  | .writeStr t k => fun p =>
      let (r, f) := Formatter.writeStr t p.1
      resume (r, (f, p.2)) (fun r => (k r).run)
  | .within r body k => fun p =>
      let (res, sub, s) := body.run (p.1.with r, p.2)
      resume (res, (p.1.endBorrow sub, s)) (fun r => (k r).run)
  | .withinArgs a r body k => fun p =>
      let (res, sub, s) := body.run (p.1.withArgs a r, p.2)
      resume (res, (p.1.endBorrow sub, s)) (fun r => (k r).run)
  | .inspect k => fun p => (k p.1.style p.1.format).run p

/-- The body of a method of one of std's formatting traits, as in StdWrite.lean (the argument `*$val` of
core/src/std_compat.rs:7), with the same two steps more. -/
inductive LiveStd (S : Type) where
  | done (r : FmtResult)
  | panic
  | get (k : S → LiveStd S)
  | set (s : S) (next : LiveStd S)
  | write (t : Str) (k : FmtResult → LiveStd S)

/-- core/src/std_compat.rs:78-84 `StdProxy`. -/
def LiveStd.viaProxy : LiveStd S → LiveDisp S
  | .done r => .done r
  | .panic => .panic
  | .get k => .get fun s => (k s).viaProxy
  | .set s next => .set s next.viaProxy
  | .write t k => .writeStr t (fun r => (k r).viaProxy)

/-- core/src/std_compat.rs:2-11 `std_write!(f, kind, arg)`. -/
def liveStdWrite (kind : StdKind) (arg : StdOpts → LiveStd S) : LiveDisp S :=
  .inspect fun _ format =>
    match stdOptsOf kind format with
    | some opts => (arg opts).viaProxy
    | none => .panic

/-- The value of an argument, as `ArgVal` in Expand.lean. (what `&#arg` is in macros/src/lib.rs:189-198) -/
structure LiveVal (S : Type) where
  std : FormatTrait → StdOpts → LiveStd S
  stylish : LiveDisp S

/-- macros/src/to_tokens.rs:212-239 and core/src/arguments.rs:62-76: what the tokens generated for an argument evaluate
to, and its `fmt`. -/
def LiveVal.wrap (tr : FormatTrait) (v : LiveVal S) : LiveDisp S :=
  match tr with
  | .Stylish => v.stylish
  | .Debug => liveStdWrite .Debug (v.std .Debug)
  | tr => liveStdWrite .Other (v.std tr)

/-- `x?; rest`. (macros/src/lib.rs:138, 189-198) -/
def LiveDisp.try_ (rest : LiveDisp S) : FmtResult → LiveDisp S
  | .ok => rest
  | .err => .done .err

/-- macros/src/lib.rs:217-220 the generated closure: the statements in order, each followed by `?`, then `Ok(())`. -/
def liveStmts (c : Captured (LiveVal S)) : List Stmt → LiveDisp S
  | [] => .done .ok
  | .lit s :: rest => .writeStr s (LiveDisp.try_ (liveStmts c rest))
  | .arg slot tr args style :: rest =>
    match c.get slot with
    | none => .panic
    | some v => .withinArgs args (.of style) (v.wrap tr) (LiveDisp.try_ (liveStmts c rest))

/-- core/src/arguments.rs:56-60 `struct Arguments`. -/
structure LiveArguments (S : Type) where
  f : LiveDisp S

/-- macros/src/lib.rs:212-224 evaluating the generated expression, as `Expansion.eval` in Expand.lean: the argument
expressions see and change the same state as the values. -/
def Expansion.evalLive (x : Expansion (Expr S (LiveVal S))) (scope : Str → LiveVal S) (s : S) : LiveArguments S × S :=
  let (pos, s) := evalTuple x.positional s
  let (named, s) := evalTuple x.named s
  let (implicit, s) := evalTuple (x.implicit.map fun n => pureExpr (scope n)) s
  (⟨liveStmts ⟨pos, named, implicit⟩ x.statements⟩, s)

/-- core/src/formatter.rs:170-173 `Formatter::write_fmt`. -/
def LiveArguments.showIn {W : Type} [Write W] (args : LiveArguments S) : Act (Formatter W × S) FmtError Unit := do
  args.f.run
  return ()

/-- core/src/write.rs:90-92 `Write::write_fmt` (default method). -/
def LiveArguments.writeFmt {W : Type} [Write W] (args : LiveArguments S) : Act (W × S) FmtError Unit := fun p =>
  let (r, f, s) := args.showIn (Formatter.new p.1, p.2)
  (r, f.write, s)

/-- core/src/write.rs:136-140 `write!(dst, ..)`: the arguments are evaluated, then shown. -/
def liveWrite {W : Type} [Write W] (E : Env) (format : Str) (args : List (MacroArg (Expr S (LiveVal S))))
    (scope : Str → LiveVal S) : Compile (Act (W × S) FmtError Unit) := do
  let x ← formatArgsMacro E format args
  return fun p =>
    let (a, s) := x.evalLive scope p.2
    a.writeFmt (p.1, s)

end Stylish
