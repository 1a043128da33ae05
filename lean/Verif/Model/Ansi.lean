import Verif.Model.Formatter
import Verif.Model.Sink
/-
Model of /repo/ansi/src/ansi.rs and /repo/ansi/src/util.rs.
-/

namespace Stylish

namespace AnsiUtil

/-- ansi/src/util.rs:3-26 `foreground`. -/
def foreground : Color → String
  | .Black => "30" | .Red => "31" | .Green => "32" | .Yellow => "33"
  | .Blue => "34" | .Magenta => "35" | .Cyan => "36" | .White => "37"
  | .Default => "39"
  | .BrightBlack => "90" | .BrightRed => "91" | .BrightGreen => "92" | .BrightYellow => "93"
  | .BrightBlue => "94" | .BrightMagenta => "95" | .BrightCyan => "96" | .BrightWhite => "97"

/-- ansi/src/util.rs:28-51 `background`. -/
def background : Color → String
  | .Black => "40" | .Red => "41" | .Green => "42" | .Yellow => "43"
  | .Blue => "44" | .Magenta => "45" | .Cyan => "46" | .White => "47"
  | .Default => "49"
  | .BrightBlack => "100" | .BrightRed => "101" | .BrightGreen => "102" | .BrightYellow => "103"
  | .BrightBlue => "104" | .BrightMagenta => "105" | .BrightCyan => "106" | .BrightWhite => "107"

/-- ansi/src/util.rs:53-60 `intensity`. -/
def intensity : Intensity → String
  | .Bold => "1"
  | .Faint => "2"
  | .Normal => "22"

end AnsiUtil

/-- ansi/src/ansi.rs:17-20 `struct Ansi<T>`. -/
structure Ansi (T : Type) where
  inner : T
  current : Style
  deriving DecidableEq, Repr

variable {T : Type}

namespace Ansi

/-- Run an action on `self.inner`. (ansi/src/ansi.rs:41-79, each `self.inner. ..`) -/
def onInner {E A : Type} (x : Act T E A) : Act (Ansi T) E A :=
  fun s => let (r, t) := x s.inner; (r, { s with inner := t })

/-- `self.inner.write_str(lit)`. (ansi/src/ansi.rs:43, 56, 66-72) -/
def put [FmtWrite T] (s : Str) : Act (Ansi T) FmtError Unit := onInner (FmtWrite.writeStr s)

/-- Read `self.current`. (ansi/src/ansi.rs:42, 55, 58) -/
def getCurrent : Act (Ansi T) FmtError Style := fun s => (.ok s.current, s)

/-- `self.current = style`. (ansi/src/ansi.rs:75) -/
def setCurrent (style : Style) : Act (Ansi T) FmtError Unit :=
  fun s => (.ok (), { s with current := style })

/-- ansi/src/ansi.rs:24-29 `Ansi::new`. -/
def new (inner : T) : Ansi T := { inner := inner, current := Style.default }

/-- The reset sequence `"\x1b[0m"` (ansi/src/ansi.rs:43,56). -/
def resetSeq : Str := str "\x1b[0m"

/-- ansi/src/ansi.rs:58-64 the `segments` array with its `None`s filtered out. -/
def segments (diff : StyleDiff) : List Str :=
  [ diff.foreground.map fun c => str (AnsiUtil.foreground c),
    diff.background.map fun c => str (AnsiUtil.background c),
    diff.intensity.map fun i => str (AnsiUtil.intensity i) ].filterMap id

/-- ansi/src/ansi.rs:68-71 the loop writing the remaining segments. -/
def putRest [FmtWrite T] : List Str → Act (Ansi T) FmtError Unit
  | [] => pure ()
  | segment :: rest => do
    put (str ";")
    put segment
    putRest rest

/-- ansi/src/ansi.rs:65-73 the `if let Some(segment) = segments.next()`. -/
def putSegments [FmtWrite T] : List Str → Act (Ansi T) FmtError Unit
  | [] => pure ()
  | segment :: rest => do
    put (str "\x1b[")
    put segment
    putRest rest
    put (str "m")

/-- ansi/src/ansi.rs:55-74 the part of `write_str` that changes the style of the stream. -/
def switchStyle [FmtWrite T] (current style : Style) : Act (Ansi T) FmtError Unit :=
  if current ≠ style ∧ style = Style.default then
    put resetSeq
  else
    putSegments (segments (style.diffFrom current))

/-- ansi/src/ansi.rs:50-79 `Write::write_str` for `Ansi`. `write!(self.inner, "{s}")` is one
`write_str(s)` on the inner stream (std's `Display for str` without width or precision). -/
def writeStr [FmtWrite T] (s : Str) (style : Style) : Act (Ansi T) FmtError Unit :=
  if s.isEmpty then pure ()
  else do
    let current ← getCurrent
    switchStyle current style
    setCurrent style
    put s
    return ()

/-- ansi/src/ansi.rs:49-80 `impl Write for Ansi<T>`; the other methods are the provided ones. -/
instance [FmtWrite T] : Write (Ansi T) := ⟨writeStr⟩

/-- ansi/src/ansi.rs:34-36 inherent `Ansi::write_fmt`. -/
def writeFmt [FmtWrite T] (args : Arguments) : Act (Ansi T) FmtError Unit :=
  Write.writeFmt args

/-- ansi/src/ansi.rs:41-46 `Ansi::finish`; the returned stream is the `inner` of the final state. -/
def finish [FmtWrite T] : Act (Ansi T) FmtError Unit := do
  let current ← getCurrent
  (if current ≠ Style.default then put resetSeq else pure ())

end Ansi

end Stylish
