import Verif.Model.Style
/-
Model of /repo/core/src/formatter.rs, display.rs, write.rs and arguments.rs (the `Arguments` part; the
`StdFmt*` part is in StdWrite.lean).
-/

namespace Stylish

/-- core/src/formatter.rs:5-9 `enum Align` (and macros/src/format.rs:83-88). -/
inductive Align where | Left | Center | Right
  deriving DecidableEq, Repr

/-- core/src/formatter.rs:13-16 `enum Sign` (and macros/src/format.rs:100-104). -/
inductive Sign where | Plus | Minus
  deriving DecidableEq, Repr

/-- core/src/formatter.rs:20-23 `enum DebugHex` (and macros/src/format.rs:112-116). -/
inductive DebugHex where | Lower | Upper
  deriving DecidableEq, Repr

/-- core/src/formatter.rs:27-35 `struct FormatterArgs`; `&usize` is a `Nat`. -/
structure FormatterArgs where
  align : Option Align
  sign : Option Sign
  alternate : Bool
  zero : Bool
  width : Option Nat
  precision : Option Nat
  debugHex : Option DebugHex
  deriving DecidableEq, Repr

/-- core/src/formatter.rs:26 `#[derive(Default)]`. -/
def FormatterArgs.default : FormatterArgs := ⟨none, none, false, false, none, none, none⟩

/-- core/src/write.rs:12-36 the required method of `trait Write`. The provided methods as overridable ones,
and `&mut W` (write.rs:95-107), are in Borrow.lean. -/
class Write (W : Type) where
  writeStr : Str → Style → Act W FmtError Unit

/-- core/src/write.rs:68-70 `Write::write_char` (default method): write the one-character string. -/
def Write.writeChar {W : Type} [Write W] (c : Char) (style : Style) : Act W FmtError Unit :=
  Write.writeStr [c] style

/-- core/src/formatter.rs:44-48 `struct Formatter`. The borrowed writer `write: &mut dyn Write` is held by
value: a sub-formatter takes it along and hands it back when its borrow ends (`endBorrow`). -/
structure Formatter (W : Type) where
  style : Style
  format : FormatterArgs
  write : W

namespace Formatter
variable {W : Type}

/-- core/src/formatter.rs:62-68 `Formatter::new`. -/
def new (write : W) : Formatter W :=
  { style := Style.default, format := FormatterArgs.default, write := write }

/-- core/src/formatter.rs:96-102 `Formatter::with`. -/
def «with» {α : Type} [Restyle α] (self : Formatter W) (restyle : α) : Formatter W :=
  { write := self.write, format := self.format, style := self.style.with restyle }

/-- core/src/formatter.rs:106-116 `Formatter::with_args`. -/
def withArgs {α : Type} [Restyle α] (self : Formatter W) (format : FormatterArgs) (restyle : α) :
    Formatter W :=
  { write := self.write, format := format, style := self.style.with restyle }

/-- The end of the reborrow of `self.write` by the sub-formatter `sub`
(core/src/formatter.rs:98,112 `&mut *self.write`). -/
def endBorrow (self sub : Formatter W) : Formatter W := { self with write := sub.write }

/-- Run an action on `self.write`. (core/src/formatter.rs:143) -/
def onWrite {A : Type} (x : Act W FmtError A) : Act (Formatter W) FmtError A :=
  fun self => let (r, w) := x self.write; (r, { self with write := w })

/-- core/src/formatter.rs:142-145 `Formatter::write_str` (and 188-193
`impl core::fmt::Write for Formatter`, which calls it). -/
def writeStr [Write W] (s : Str) : Act (Formatter W) FmtError Unit := fun self =>
  (do
    onWrite (Write.writeStr s self.style)
    return ()) self

end Formatter

/-- A `Display` implementation, i.e. the body of `fn fmt(&self, f: &mut Formatter) -> Result`
(core/src/display.rs:29-53), as the tree of its interactions with the formatter `f`. User code is
arbitrary, so the tree is too: after each call the program continues depending on the call's result.
Assumption (DESIGN.md): the program terminates and touches the writer only through `f`.

* `done r`: return `r`; `panic`: panic.
* `writeStr s k`: `f.write_str(s)` (also `core::fmt::Write::write_str`, formatter.rs:188-193).
* `within r body k`: `body` run on the sub-formatter `f.with(r)`, then `k` of its result, back on `f`.
  (`Write::write_str(f, s, style)`, formatter.rs:176-180, is `within` with a `Style`.)
* `withinArgs a r body k`: the same for `f.with_args(a, r)`.
* `inspect k`: look at the formatter's own fields (possible through `impl Debug for Formatter`,
  formatter.rs:50-58, and done by the std compatibility layer). -/
inductive Disp where
  | done (r : FmtResult)
  | panic
  | writeStr (s : Str) (k : FmtResult → Disp)
  | within (r : DynRestyle) (body : Disp) (k : FmtResult → Disp)
  | withinArgs (a : FormatterArgs) (r : DynRestyle) (body : Disp) (k : FmtResult → Disp)
  | inspect (k : Style → FormatterArgs → Disp)

/-- Continue with the `fmt::Result` of a call, or unwind if it panicked.
(what follows a call in an implementation of core/src/display.rs:52) -/
def resume {S : Type} (r : Res FmtError Unit × S) (k : FmtResult → Act S FmtError Unit) :
    Res FmtError Unit × S :=
  match r with
  | (.ok (), s) => k .ok s
  | (.err (), s) => k .err s
  | (.panic, s) => (.panic, s)
  | (.diverge, s) => (.diverge, s)

/-- Run a Display program on a formatter (`Display::fmt(&x, f)`). (core/src/display.rs:52) -/
def Disp.run {W : Type} [Write W] : Disp → Act (Formatter W) FmtError Unit
  | .done r => fun f => (r.toRes, f)
  | .panic => fun f => (.panic, f)
  | .writeStr s k => fun f => resume (Formatter.writeStr s f) (fun r => (k r).run)
  | .within r body k => fun f =>
      let (res, sub) := body.run (f.with r)
      resume (res, f.endBorrow sub) (fun r => (k r).run)
  | .withinArgs a r body k => fun f =>
      let (res, sub) := body.run (f.withArgs a r)
      resume (res, f.endBorrow sub) (fun r => (k r).run)
  | .inspect k => fun f => (k f.style f.format).run f

/-- core/src/display.rs:29-53 `trait Display`. -/
class Display (α : Type) where
  fmt : α → Disp

/-- core/src/display.rs:55-59 `impl Display for &T`. -/
instance {α : Type} [Display α] : Display (Ref α) := ⟨fun r => Display.fmt r.val⟩

/-- `x?; rest` inside a Display program: continue only on `Ok`.
(e.g. core/src/string.rs:80, macros/src/lib.rs:138, 189-198) -/
def Disp.try_ (rest : Disp) : FmtResult → Disp
  | .ok => rest
  | .err => .done .err

/-- core/src/arguments.rs:56-60 `struct Arguments`; the closure is a Display program. -/
structure Arguments where
  f : Disp

/-- core/src/arguments.rs:78-83 `impl Display for Arguments`. -/
instance : Display Arguments := ⟨fun a => a.f⟩

/-- core/src/formatter.rs:170-173 `Formatter::write_fmt`. -/
def Formatter.writeFmt {W : Type} [Write W] (args : Arguments) :
    Act (Formatter W) FmtError Unit := do
  (Display.fmt args).run
  return ()

/-- core/src/write.rs:90-92 `Write::write_fmt` (default method). -/
def Write.writeFmt {W : Type} [Write W] (args : Arguments) : Act W FmtError Unit := fun self =>
  let (r, f) := Formatter.writeFmt args (Formatter.new self)
  (r, f.write)

/-- core/src/formatter.rs:176-180 `impl Write for Formatter`, `write_str`. (The overridden `write_fmt`,
182-185, is `Formatter.writeFmt`.) -/
instance {W : Type} [Write W] : Write (Formatter W) :=
  ⟨fun s style self =>
    let (r, sub) := Formatter.writeStr s (self.with style)
    (r, self.endBorrow sub)⟩

end Stylish
