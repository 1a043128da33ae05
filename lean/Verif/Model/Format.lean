import Verif.Model.Nom
import Verif.Model.Formatter
/-
Model of /repo/macros/src/format.rs: the format string parser of the proc macro.
-/

namespace Stylish

open Nom

/-- External facts the parser consults: the Unicode identifier classes (`unicode_ident`) and the
target's `usize::MAX`. (used in macros/src/format.rs:16-17, 159, 232) -/
structure Env where
  xidStart : Char → Bool
  xidContinue : Char → Bool
  usizeMax : Nat

namespace Format

/-- macros/src/format.rs:14-19 `identifier`. -/
def identifier (E : Env) : P Str :=
  recognize (pair
    (alt [satisfy E.xidStart, char '_'])
    (many0 (satisfy E.xidContinue)))

/-- macros/src/format.rs:25-39 `impl Parse for Color`. -/
def parseColor : P Color :=
  alt [
    value .Black (tag (str "black")),
    value .Red (tag (str "red")),
    value .Green (tag (str "green")),
    value .Yellow (tag (str "yellow")),
    value .Blue (tag (str "blue")),
    value .Magenta (tag (str "magenta")),
    value .Cyan (tag (str "cyan")),
    value .White (tag (str "white")),
    value .Default (tag (str "default"))]

/-- macros/src/format.rs:41-49 `impl Parse for Intensity`. -/
def parseIntensity : P Intensity :=
  alt [
    value .Normal (tag (str "normal")),
    value .Bold (tag (str "bold")),
    value .Faint (tag (str "faint"))]

/-- macros/src/format.rs:51-66 `impl Parse for Box<dyn Restyle>`. -/
def parseRestyle : P (Boxed DynRestyle) :=
  alt [
    map (preceded (tag (str "fg")) (cut (preceded (tag (str "=")) parseColor)))
      (fun color => ⟨.of (Foreground.mk color)⟩),
    map (preceded (tag (str "bg")) (cut (preceded (tag (str "=")) parseColor)))
      (fun color => ⟨.of (Background.mk color)⟩),
    map parseIntensity (fun intensity => ⟨.of intensity⟩)]

/-- macros/src/format.rs:68-81 `impl Parse for StyleDiff`. -/
def parseStyleDiff : P StyleDiff :=
  map (separatedList0 (tag (str ",")) (cut parseRestyle))
    (fun restyles => (Style.default.with restyles).diffFrom Style.default)

/-- macros/src/format.rs:90-98 `impl Parse for Align`. -/
def parseAlign : P Align :=
  alt [
    value .Left (tag (str "<")),
    value .Center (tag (str "^")),
    value .Right (tag (str ">"))]

/-- macros/src/format.rs:106-110 `impl Parse for Sign`. -/
def parseSign : P Sign :=
  alt [value .Plus (tag (str "+")), value .Minus (tag (str "-"))]

/-- macros/src/format.rs:129-141 `enum FormatTrait`. -/
inductive FormatTrait where
  | Display | Debug | Octal | LowerHex | UpperHex | Pointer | Binary | LowerExp | UpperExp | Stylish
  deriving DecidableEq, Repr

/-- macros/src/format.rs:224-227 `enum FormatArgRef`. -/
inductive FormatArgRef where
  | Positional (n : Nat)
  | Named (name : Str)
  deriving DecidableEq, Repr

/-- macros/src/format.rs:149-153 `enum Count`. -/
inductive Count where
  | Parameter (ref : FormatArgRef)
  | Integer (n : Nat)
  deriving DecidableEq, Repr

/-- macros/src/format.rs:118-127 the macro's own `struct FormatterArgs`. -/
structure MFormatterArgs where
  align : Option Align
  sign : Option Sign
  alternate : Bool
  zero : Bool
  width : Option Count
  precision : Option Count
  debugHex : Option DebugHex
  deriving DecidableEq, Repr

/-- macros/src/format.rs:118 `#[derive(Default)]`. -/
def MFormatterArgs.default : MFormatterArgs := ⟨none, none, false, false, none, none, none⟩

/-- macros/src/format.rs:164-169 `struct FormatSpec`. -/
structure FormatSpec where
  formatterArgs : MFormatterArgs
  style : StyleDiff
  formatTrait : FormatTrait
  deriving DecidableEq, Repr

/-- macros/src/format.rs:164 `#[derive(Default)]`, with 143-147 `impl Default for FormatTrait`. -/
def FormatSpec.default : FormatSpec := ⟨.default, .default, .Display⟩

/-- The value of a string of ASCII digits. (part of `usize::from_str`, macros/src/format.rs:159, 232) -/
def digitsVal (ds : Str) : Nat := ds.foldl (fun n d => 10 * n + (d.toNat - '0'.toNat)) 0

/-- `usize::from_str` on a non-empty string of ASCII digits: fails on overflow.
(external; used in macros/src/format.rs:159, 232) -/
def usizeFromStr (E : Env) (ds : Str) : Option Nat :=
  if digitsVal ds ≤ E.usizeMax then some (digitsVal ds) else none

/-- macros/src/format.rs:229-236 `impl Parse for FormatArgRef`. -/
def parseFormatArgRef (E : Env) : P FormatArgRef :=
  alt [
    map (mapRes digit1 (usizeFromStr E)) .Positional,
    map (identifier E) .Named]

/-- macros/src/format.rs:155-162 `impl Parse for Count`. -/
def parseCount (E : Env) : P Count :=
  alt [
    map (terminated (parseFormatArgRef E) (tag (str "$"))) .Parameter,
    map (mapRes digit1 (usizeFromStr E)) .Integer]

/-- macros/src/format.rs:173-176 the fill/alignment parser. -/
def parseFillAlign : P (Option (Char × Align)) :=
  opt (alt [
    pair anychar parseAlign,
    map parseAlign (fun align => (' ', align))])

/-- macros/src/format.rs:177-182: a fill other than space is `todo!()`, a panic. -/
def checkFill (rest : Str) : Option (Char × Align) → PRes (Option Align)
  | none => .ok rest none
  | some (fill, align) => if fill ≠ ' ' then .panic else .ok rest (some align)

/-- macros/src/format.rs:189-201 the trait selector. -/
def parseTrait : P (Option (Option DebugHex × FormatTrait)) :=
  opt (alt [
    value (none, .Debug) (tag (str "?")),
    value (some .Lower, .Debug) (tag (str "x?")),
    value (some .Upper, .Debug) (tag (str "X?")),
    value (none, .Octal) (tag (str "o")),
    value (none, .LowerHex) (tag (str "x")),
    value (none, .UpperHex) (tag (str "X")),
    value (none, .Pointer) (tag (str "p")),
    value (none, .Binary) (tag (str "b")),
    value (none, .LowerExp) (tag (str "e")),
    value (none, .UpperExp) (tag (str "E")),
    value (none, .Stylish) (tag (str "s"))])

/-- macros/src/format.rs:171-221 `impl Parse for FormatSpec`. -/
def parseFormatSpec (E : Env) : P FormatSpec := fun input =>
  (parseFillAlign input).bind fun input align =>
  (checkFill input align).bind fun input align =>
  (opt parseSign input).bind fun input sign =>
  (opt (value true (tag (str "#"))) input).bind fun input alternate =>
  (opt (value true (tag (str "0"))) input).bind fun input zero =>
  (opt (parseCount E) input).bind fun input width =>
  (opt (preceded (tag (str ".")) (parseCount E)) input).bind fun input precision =>
  (opt (delimited (tag (str "(")) (cut parseStyleDiff) (tag (str ")"))) input).bind
    fun input style =>
  (parseTrait input).bind fun input debugHexAndFormatTrait =>
  let debugHex := debugHexAndFormatTrait.bind (fun p => p.1)
  let formatTrait := debugHexAndFormatTrait.map (fun p => p.2)
  .ok input
    { formatterArgs :=
        { align := align
          sign := sign
          alternate := alternate.getD false
          zero := zero.getD false
          width := width
          precision := precision
          debugHex := debugHex }
      style := style.getD .default
      formatTrait := formatTrait.getD .Display }

/-- macros/src/format.rs:238-242 `struct FormatArg`. -/
structure FormatArg where
  arg : Option FormatArgRef
  formatSpec : FormatSpec
  deriving DecidableEq, Repr

/-- macros/src/format.rs:244-256 `impl Parse for FormatArg`. -/
def parseFormatArg (E : Env) : P FormatArg := fun input =>
  (opt (parseFormatArgRef E) input).bind fun input arg =>
  (opt (preceded (tag (str ":")) (parseFormatSpec E)) input).bind fun input formatSpec =>
  .ok input { arg := arg, formatSpec := formatSpec.getD .default }

/-- macros/src/format.rs:258-263 `enum Piece`. -/
inductive Piece where
  | Lit (s : Str)
  | Arg (a : FormatArg)
  deriving DecidableEq, Repr

/-- macros/src/format.rs:266-272 `Piece::parse_lit`. -/
def parseLit : P Piece :=
  alt [
    map (recognize (many1 (noneOf (str "{}")))) .Lit,
    value (.Lit (str "{")) (tag (str "{{")),
    value (.Lit (str "}")) (tag (str "}}"))]

/-- macros/src/format.rs:274-279 `Piece::parse_arg`. -/
def parseArg (E : Env) : P Piece :=
  map (delimited (tag (str "{")) (cut (parseFormatArg E)) (tag (str "}"))) .Arg

/-- macros/src/format.rs:282-286 `impl Parse for Piece`. -/
def parsePiece (E : Env) : P Piece := alt [parseLit, parseArg E]

/-- macros/src/format.rs:288-297 `struct Format` and its `Parse`. -/
def parseFormat (E : Env) : P (List Piece) :=
  allConsuming (many0 (parsePiece E))

end Format

end Stylish
