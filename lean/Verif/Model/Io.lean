import Verif.Model.Formatter
import Verif.Model.Ansi
/-
Model of /repo/core/src/io.rs, /repo/ansi/src/io.rs and /repo/plain/src/io.rs.

Unbounded retry loops take a fuel argument: running out of it is `Res.diverge`. Types whose methods
contain such loops carry the fuel as a (phantom) parameter.
-/

namespace Stylish

/-- `std::io::ErrorKind` (external): the two kinds the code distinguishes, `Other`, and the rest.
(used in core/src/io.rs:21, 180, 185) -/
inductive ErrorKind where
  | Interrupted
  | WriteZero
  | Other
  | Os (code : Nat)
  deriving DecidableEq, Repr

/-- `std::io::Error` (external): its kind and its message/payload. (used in core/src/io.rs:21, 179-186) -/
structure IoError where
  kind : ErrorKind
  message : String
  deriving DecidableEq, Repr

/-- The default method `std::io::Write::write_all` (external; std's documented loop over `write`).
(inherited by streams used in plain/src/io.rs:51-53, ansi/src/io.rs:47, 58, 68-74) -/
def stdWriteAll {T : Type} (write : Bytes → Act T IoError Nat) : Nat → Bytes → Act T IoError Unit
  | 0, buf => fun t => if buf.isEmpty then (.ok (), t) else (.diverge, t)
  | fuel + 1, buf => fun t =>
    if buf.isEmpty then (.ok (), t)
    else match write buf t with
      | (.ok 0, t) => (.err ⟨.WriteZero, "failed to write whole buffer"⟩, t)
      | (.ok (n + 1), t) =>
        if n + 1 ≤ buf.length then stdWriteAll write fuel (buf.drop (n + 1)) t else (.panic, t)
      | (.err e, t) => if e.kind = .Interrupted then stdWriteAll write fuel buf t else (.err e, t)
      | (.panic, t) => (.panic, t)
      | (.diverge, t) => (.diverge, t)

/-- `std::io::Write` (external): an arbitrary state machine. `write` and `flush` are required; a stream may
replace `write_all` by its own, as `Vec`, `BufWriter` and `Stdout` do. Only `write_all` takes the fuel of the
file header. (the bound in plain/src/io.rs:42, ansi/src/io.rs:55) -/
class StdIoWrite (T : Type) where
  write : Bytes → Act T IoError Nat
  flush : Act T IoError Unit
  writeAll : Nat → Bytes → Act T IoError Unit := stdWriteAll write

/-- core/src/io.rs:69-247 `trait io::Write`: the required methods `write`, `flush` and the
overridable `write_all`. `write_fmt` as a method, `&mut W` forwarding (io.rs:254-270) and `by_ref`
(io.rs:245-251) are in Borrow.lean. -/
class IoWrite (W : Type) where
  write : Bytes → Style → Act W IoError Nat
  flush : Act W IoError Unit
  writeAll : Bytes → Style → Act W IoError Unit

/-- core/src/io.rs:175-190 the default `write_all`. `&buf[n..]` with `n > buf.len()` panics. -/
def defaultWriteAll {W : Type} (write : Bytes → Style → Act W IoError Nat) :
    Nat → Bytes → Style → Act W IoError Unit
  | 0, buf, _ => fun w => if buf.isEmpty then (.ok (), w) else (.diverge, w)
  | fuel + 1, buf, style => fun w =>
    if buf.isEmpty then (.ok (), w)
    else match write buf style w with
      | (.ok 0, w) => (.err ⟨.WriteZero, "failed to write whole buffer"⟩, w)
      | (.ok (n + 1), w) =>
        if n + 1 ≤ buf.length then defaultWriteAll write fuel (buf.drop (n + 1)) style w
        else (.panic, w)
      | (.err e, w) =>
        if e.kind = .Interrupted then defaultWriteAll write fuel buf style w else (.err e, w)
      | (.panic, w) => (.panic, w)
      | (.diverge, w) => (.diverge, w)

/-- core/src/io.rs:8-11 `struct ErrorTrap`. -/
structure ErrorTrap (W : Type) where
  inner : W
  error : Option IoError
  deriving DecidableEq, Repr

namespace ErrorTrap
variable {W : Type}

/-- core/src/io.rs:14-16 `ErrorTrap::new`. -/
def new (inner : W) : ErrorTrap W := { inner := inner, error := none }

/-- core/src/io.rs:18-22 `ErrorTrap::error`. -/
def takeError (self : ErrorTrap W) : IoError :=
  match self.error with
  | some e => e
  | none => ⟨.Other, "formatter error"⟩

/-- core/src/io.rs:25-35 `impl crate::Write for ErrorTrap`. -/
instance [IoWrite W] : Write (ErrorTrap W) :=
  ⟨fun s style self =>
    match IoWrite.writeAll (utf8 s) style self.inner with
    | (.ok (), w) => (.ok (), { self with inner := w })
    | (.err err, w) => (.err (), { self with inner := w, error := some err })
    | (.panic, w) => (.panic, { self with inner := w })
    | (.diverge, w) => (.diverge, { self with inner := w })⟩

end ErrorTrap

/-- core/src/io.rs:218-222 `io::Write::write_fmt`. -/
def IoWrite.writeFmt {W : Type} [IoWrite W] (args : Arguments) : Act W IoError Unit := fun self =>
  match Write.writeFmt args (ErrorTrap.new self) with
  | (.ok (), trap) => (.ok (), trap.inner)
  | (.err (), trap) => (.err trap.takeError, trap.inner)
  | (.panic, trap) => (.panic, trap.inner)
  | (.diverge, trap) => (.diverge, trap.inner)

/-- plain/src/io.rs:19-21 `struct io::Plain<T>` (`fuel`: see the file header). -/
structure IoPlain (fuel : Nat) (T : Type) where
  inner : T
  deriving DecidableEq, Repr

namespace IoPlain
variable {fuel : Nat} {T : Type}

/-- Run an action on `self.inner`. (plain/src/io.rs:42-54) -/
def onInner {E A : Type} (x : Act T E A) : Act (IoPlain fuel T) E A :=
  fun s => let (r, t) := x s.inner; (r, { s with inner := t })

/-- plain/src/io.rs:25-27 `io::Plain::new`. -/
def new (inner : T) : IoPlain fuel T := ⟨inner⟩

/-- plain/src/io.rs:37-39 `io::Plain::into_inner`. -/
def intoInner (self : IoPlain fuel T) : T := self.inner

/-- plain/src/io.rs:42-54 `impl io::Write for io::Plain`, which overrides `write_all`. -/
instance [StdIoWrite T] : IoWrite (IoPlain fuel T) where
  write s _style := onInner (StdIoWrite.write s)
  flush := onInner StdIoWrite.flush
  writeAll s _style := onInner (StdIoWrite.writeAll fuel s)

end IoPlain

/-- ansi/src/io.rs:21-24 `struct io::Ansi<T>` (`fuel`: see the file header). -/
structure IoAnsi (fuel : Nat) (T : Type) where
  inner : T
  current : Style
  deriving DecidableEq, Repr

namespace IoAnsi
variable {fuel : Nat} {T : Type}

/-- Run an action on `self.inner`. (ansi/src/io.rs:45-84) -/
def onInner {E A : Type} (x : Act T E A) : Act (IoAnsi fuel T) E A :=
  fun s => let (r, t) := x s.inner; (r, { s with inner := t })

/-- Read `self.current`. (ansi/src/io.rs:46, 57, 60) -/
def getCurrent : Act (IoAnsi fuel T) IoError Style := fun s => (.ok s.current, s)

/-- `self.current = style`. (ansi/src/io.rs:77) -/
def setCurrent (style : Style) : Act (IoAnsi fuel T) IoError Unit :=
  fun s => (.ok (), { s with current := style })

/-- `self.inner.write_all(bytes)` on a literal. (ansi/src/io.rs:47, 58, 68-74) -/
def put [StdIoWrite T] (s : Str) : Act (IoAnsi fuel T) IoError Unit :=
  onInner (StdIoWrite.writeAll fuel (utf8 s))

/-- ansi/src/io.rs:28-33 `io::Ansi::new`. -/
def new (inner : T) : IoAnsi fuel T := { inner := inner, current := Style.default }

/-- ansi/src/io.rs:70-73 the loop writing the remaining segments. -/
def putRest [StdIoWrite T] : List Str → Act (IoAnsi fuel T) IoError Unit
  | [] => pure ()
  | segment :: rest => do
    put (str ";")
    put segment
    putRest rest

/-- ansi/src/io.rs:67-75 the `if let Some(segment) = segments.next()`. -/
def putSegments [StdIoWrite T] : List Str → Act (IoAnsi fuel T) IoError Unit
  | [] => pure ()
  | segment :: rest => do
    put (str "\x1b[")
    put segment
    putRest rest
    put (str "m")

/-- ansi/src/io.rs:61-66 the `segments` array with its `None`s filtered out. -/
def segments (diff : StyleDiff) : List Str :=
  [ diff.foreground.map fun c => str (AnsiUtil.foreground c),
    diff.background.map fun c => str (AnsiUtil.background c),
    diff.intensity.map fun i => str (AnsiUtil.intensity i) ].filterMap id

/-- ansi/src/io.rs:57-76 the part of `write` that changes the style of the stream. -/
def switchStyle [StdIoWrite T] (current style : Style) : Act (IoAnsi fuel T) IoError Unit :=
  if current ≠ style ∧ style = Style.default then
    put (str "\x1b[0m")
  else
    putSegments (segments (style.diffFrom current))

/-- ansi/src/io.rs:56-80 `io::Write::write` for `io::Ansi`. -/
def write [StdIoWrite T] (s : Bytes) (style : Style) : Act (IoAnsi fuel T) IoError Nat := do
  let current ← getCurrent
  switchStyle current style
  setCurrent style
  onInner (StdIoWrite.write s)

/-- ansi/src/io.rs:55-85 `impl io::Write for io::Ansi`, with the default `write_all`. -/
instance [StdIoWrite T] : IoWrite (IoAnsi fuel T) where
  write := write
  flush := onInner StdIoWrite.flush
  writeAll := defaultWriteAll write fuel

/-- ansi/src/io.rs:45-50 `io::Ansi::finish`; the returned stream is the `inner` of the final state. -/
def finish [StdIoWrite T] : Act (IoAnsi fuel T) IoError Unit := do
  let current ← getCurrent
  (if current ≠ Style.default then put (str "\x1b[0m") else pure ())

end IoAnsi

end Stylish
