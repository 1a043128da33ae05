import Verif.Model.Formatter
import Verif.Model.Sink
/-
Model of /repo/html/src/html.rs, /repo/html/src/util.rs, and of the external function
`askama_escape::escape(_, Html)` (version 0.10.3, see DESIGN.md: trusted base).
-/

namespace Stylish

namespace HtmlUtil

/-- html/src/util.rs:3-26 `foreground`. -/
def foreground : Color → String
  | .Black => "color:black" | .Red => "color:red" | .Green => "color:green"
  | .Yellow => "color:yellow" | .Blue => "color:blue" | .Magenta => "color:magenta"
  | .Cyan => "color:cyan" | .White => "color:white"
  | .Default => "color:inherit"
  | .BrightBlack => "color:gray" | .BrightRed => "color:#af0000"
  | .BrightGreen => "color:#00ff00" | .BrightYellow => "color:#ffff00"
  | .BrightBlue => "color:#0000ff" | .BrightMagenta => "color:#ff00ff"
  | .BrightCyan => "color:#00ffff" | .BrightWhite => "color:#ffffff"

/-- html/src/util.rs:28-51 `background`. -/
def background : Color → String
  | .Black => "background-color:black" | .Red => "background-color:red"
  | .Green => "background-color:green" | .Yellow => "background-color:yellow"
  | .Blue => "background-color:blue" | .Magenta => "background-color:magenta"
  | .Cyan => "background-color:cyan" | .White => "background-color:white"
  | .Default => "background-color:inherit"
  | .BrightBlack => "background-color:gray" | .BrightRed => "background-color:#af0000"
  | .BrightGreen => "background-color:#00ff00" | .BrightYellow => "background-color:#ffff00"
  | .BrightBlue => "background-color:#0000ff" | .BrightMagenta => "background-color:#ff00ff"
  | .BrightCyan => "background-color:#00ffff" | .BrightWhite => "background-color:#ffffff"

/-- html/src/util.rs:53-60 `intensity`. -/
def intensity : Intensity → String
  | .Bold => "font-weight:bolder"
  | .Faint => "font-weight:lighter"
  | .Normal => "font-weight:inherit"

end HtmlUtil

/-- html/src/html.rs:21-24 `struct Html<T>`. -/
structure Html (T : Type) where
  inner : T
  current : Style
  deriving DecidableEq, Repr

/-- The replacement table of `askama_escape::Html` (external). (used in html/src/html.rs:86) -/
def htmlEntity (c : Char) : Option Str :=
  if c = '<' then some (str "&lt;")
  else if c = '>' then some (str "&gt;")
  else if c = '&' then some (str "&amp;")
  else if c = '"' then some (str "&quot;")
  else if c = '\'' then some (str "&#x27;")
  else none

variable {T : Type}

namespace Html

/-- Run an action on `self.inner`. (html/src/html.rs:45-89, each `self.inner. ..`) -/
def onInner {E A : Type} (x : Act T E A) : Act (Html T) E A :=
  fun s => let (r, t) := x s.inner; (r, { s with inner := t })

/-- `self.inner.write_str(lit)`. (html/src/html.rs:47, 61, 73-81) -/
def put [FmtWrite T] (s : Str) : Act (Html T) FmtError Unit := onInner (FmtWrite.writeStr s)

/-- Read `self.current`. (html/src/html.rs:46, 60, 63, 72) -/
def getCurrent : Act (Html T) FmtError Style := fun s => (.ok s.current, s)

/-- `self.current = style`. (html/src/html.rs:84) -/
def setCurrent (style : Style) : Act (Html T) FmtError Unit :=
  fun s => (.ok (), { s with current := style })

/-- html/src/html.rs:28-33 `Html::new`. -/
def new (inner : T) : Html T := { inner := inner, current := Style.default }

/-- html/src/html.rs:65-70 the `segments` array with its `None`s filtered out. -/
def segments (diff : StyleDiff) : List Str :=
  [ diff.foreground.map fun c => str (HtmlUtil.foreground c),
    diff.background.map fun c => str (HtmlUtil.background c),
    diff.intensity.map fun i => str (HtmlUtil.intensity i) ].filterMap id

/-- html/src/html.rs:77-80 the loop writing the remaining segments. -/
def putRest [FmtWrite T] : List Str → Act (Html T) FmtError Unit
  | [] => pure ()
  | segment :: rest => do
    put (str ";")
    put segment
    putRest rest

/-- html/src/html.rs:46-48, 60-62, 72-74: close the open span, if there is one. -/
def closeSpan [FmtWrite T] (current : Style) : Act (Html T) FmtError Unit :=
  if current ≠ Style.default then put (str "</span>") else pure ()

/-- html/src/html.rs:71-82 the `if let Some(segment) = segments.next()`. -/
def putSegments [FmtWrite T] (current : Style) : List Str → Act (Html T) FmtError Unit
  | [] => pure ()
  | segment :: rest => do
    closeSpan current
    put (str "<span style=")
    put segment
    putRest rest
    put (str ">")

/-- `write!(self.inner, "{}", escape(s, AskamaHtml))` (html/src/html.rs:86). `askama_escape` scans the
string, and at each special character writes the pending run and then the replacement; at the end the
last run. `run` is the pending run. -/
def putEscaped [FmtWrite T] (run : Str) : Str → Act (Html T) FmtError Unit
  | [] => put run
  | c :: cs =>
    match htmlEntity c with
    | some entity => do
      put run
      put entity
      putEscaped [] cs
    | none => putEscaped (run ++ [c]) cs

/-- html/src/html.rs:59-83 the part of `write_str` that changes the open span. -/
def switchStyle [FmtWrite T] (current style : Style) : Act (Html T) FmtError Unit :=
  if style = Style.default then
    closeSpan current
  else if style ≠ current then
    putSegments current (segments (style.diffFrom Style.default))
  else pure ()

/-- html/src/html.rs:54-89 `Write::write_str` for `Html`. -/
def writeStr [FmtWrite T] (s : Str) (style : Style) : Act (Html T) FmtError Unit :=
  if s.isEmpty then pure ()
  else do
    let current ← getCurrent
    switchStyle current style
    setCurrent style
    putEscaped [] s
    return ()

/-- html/src/html.rs:53 ff. `impl Write for Html<T>`; the other methods are the provided ones. -/
instance [FmtWrite T] : Write (Html T) := ⟨writeStr⟩

/-- html/src/html.rs:38-40 inherent `Html::write_fmt`. -/
def writeFmt [FmtWrite T] (args : Arguments) : Act (Html T) FmtError Unit :=
  Write.writeFmt args

/-- html/src/html.rs:45-50 `Html::finish`; the returned stream is the `inner` of the final state. -/
def finish [FmtWrite T] : Act (Html T) FmtError Unit := do
  let current ← getCurrent
  closeSpan current

end Html

end Stylish
