import Verif.Model.Formatter
/-
`{:?}` and `{:#?}` of a formatter: /repo/core/src/formatter.rs:50-58 and the `derive(Debug)`s of what it shows.
(The `derive(Debug)`s of `Ansi`, `Html`, `Plain` and `String` are in DebugMore.lean; those of the macro's types are not modelled.)
-/

namespace Stylish

mutual
/-- What a `Debug` implementation describes to `core::fmt` with `debug_struct`, `debug_tuple` etc.
(external; as used in core/src/formatter.rs:53-56) -/
inductive DebugVal where
  /-- a unit variant -/
  | unit (name : Str)
  /-- a tuple variant with one field -/
  | tuple (name : Str) (field : DebugVal)
  /-- a struct with named fields -/
  | struct (name : Str) (fields : DebugFields)
  | nat (n : Nat)
  | bool (b : Bool)
/-- The fields of a struct, in order. (core/src/formatter.rs:54-55) -/
inductive DebugFields where
  | nil
  | cons (name : Str) (value : DebugVal) (rest : DebugFields)
end

/-- `PadAdapter` of `core::fmt` (external): four spaces at the start of every line. (for core/src/formatter.rs:53) -/
def padLines : Bool → Str → Str
  | _, [] => []
  | start, c :: cs => (if start then str "    " else []) ++ c :: padLines (c = '\n') cs

mutual
/-- `{:?}` (external: `DebugStruct`, `DebugTuple`, `usize`, `bool`; for core/src/formatter.rs:53-56) -/
def DebugVal.plain : DebugVal → Str
  | .unit name => name
  | .tuple name field => name ++ str "(" ++ field.plain ++ str ")"
  | .struct name .nil => name
  | .struct name fields => name ++ fields.plain (str " { ") ++ str " }"
  | .nat n => Nat.toDigits 10 n
  | .bool b => if b then str "true" else str "false"
/-- (external; core/src/formatter.rs:54-55) -/
def DebugFields.plain (before : Str) : DebugFields → Str
  | .nil => []
  | .cons name value rest => before ++ name ++ str ": " ++ value.plain ++ rest.plain (str ", ")
end

mutual
/-- `{:#?}` (external; for core/src/formatter.rs:53-56) -/
def DebugVal.pretty : DebugVal → Str
  | .unit name => name
  | .tuple name field => name ++ str "(\n" ++ padLines true (field.pretty ++ str ",\n") ++ str ")"
  | .struct name .nil => name
  | .struct name fields => name ++ str " {\n" ++ fields.pretty ++ str "}"
  | .nat n => Nat.toDigits 10 n
  | .bool b => if b then str "true" else str "false"
/-- (external; core/src/formatter.rs:54-55) -/
def DebugFields.pretty : DebugFields → Str
  | .nil => []
  | .cons name value rest => padLines true (name ++ str ": " ++ value.pretty ++ str ",\n") ++ rest.pretty
end

/-- style/src/lib.rs:16 `derive(Debug)` on `Color`. -/
def Color.debug : Color → DebugVal
  | .Black => .unit (str "Black")
  | .Red => .unit (str "Red")
  | .Green => .unit (str "Green")
  | .Yellow => .unit (str "Yellow")
  | .Blue => .unit (str "Blue")
  | .Magenta => .unit (str "Magenta")
  | .Cyan => .unit (str "Cyan")
  | .White => .unit (str "White")
  | .BrightBlack => .unit (str "BrightBlack")
  | .BrightRed => .unit (str "BrightRed")
  | .BrightGreen => .unit (str "BrightGreen")
  | .BrightYellow => .unit (str "BrightYellow")
  | .BrightBlue => .unit (str "BrightBlue")
  | .BrightMagenta => .unit (str "BrightMagenta")
  | .BrightCyan => .unit (str "BrightCyan")
  | .BrightWhite => .unit (str "BrightWhite")
  | .Default => .unit (str "Default")

/-- style/src/lib.rs:56 `derive(Debug)` on `Intensity`. -/
def Intensity.debug : Intensity → DebugVal
  | .Normal => .unit (str "Normal")
  | .Bold => .unit (str "Bold")
  | .Faint => .unit (str "Faint")

/-- style/src/lib.rs:69 `derive(Debug)` on `Style`. -/
def Style.debug (s : Style) : DebugVal :=
  .struct (str "Style") (.cons (str "foreground") s.foreground.debug (.cons (str "background") s.background.debug
    (.cons (str "intensity") s.intensity.debug .nil)))

/-- core/src/formatter.rs:4 `derive(Debug)` on `Align`. -/
def Align.debug : Align → DebugVal
  | .Left => .unit (str "Left")
  | .Center => .unit (str "Center")
  | .Right => .unit (str "Right")

/-- core/src/formatter.rs:12 `derive(Debug)` on `Sign`. -/
def Sign.debug : Sign → DebugVal
  | .Plus => .unit (str "Plus")
  | .Minus => .unit (str "Minus")

/-- core/src/formatter.rs:19 `derive(Debug)` on `DebugHex`. -/
def DebugHex.debug : DebugHex → DebugVal
  | .Lower => .unit (str "Lower")
  | .Upper => .unit (str "Upper")

/-- `derive(Debug)` on `Option` (external; for the fields of core/src/formatter.rs:28-34). -/
def optDebug {A : Type} (f : A → DebugVal) : Option A → DebugVal
  | none => .unit (str "None")
  | some a => .tuple (str "Some") (f a)

/-- core/src/formatter.rs:26 `derive(Debug)` on `FormatterArgs`. -/
def FormatterArgs.debug (a : FormatterArgs) : DebugVal :=
  .struct (str "FormatterArgs") (.cons (str "align") (optDebug Align.debug a.align)
    (.cons (str "sign") (optDebug Sign.debug a.sign) (.cons (str "alternate") (.bool a.alternate)
      (.cons (str "zero") (.bool a.zero) (.cons (str "width") (optDebug DebugVal.nat a.width)
        (.cons (str "precision") (optDebug DebugVal.nat a.precision)
          (.cons (str "debug_hex") (optDebug DebugHex.debug a.debugHex) .nil)))))))

/-- core/src/formatter.rs:50-58 `impl Debug for Formatter`. -/
def Formatter.debug {W : Type} (f : Formatter W) : DebugVal :=
  .struct (str "Formatter") (.cons (str "style") f.style.debug (.cons (str "format") f.format.debug .nil))

/-- `format!("{:?}", f)`, and with `alternate` `format!("{:#?}", f)` (core/src/formatter.rs:52, external). -/
def Formatter.debugText {W : Type} (alternate : Bool) (f : Formatter W) : Str :=
  if alternate then f.debug.pretty else f.debug.plain

end Stylish
