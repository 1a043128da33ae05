import Verif.Spec.Macro
/-
Specification: how texts and numbers are shown in a placeholder with sign, `#`, `0`, width, precision and alignment,
after the documentation of std::fmt ("Formatting Parameters"); and what a whole format string shows.
-/

namespace Stylish.Spec.Fields

open Syntax

/-- A value of one of std's types. -/
inductive Value where
  | text (s : Str)
  | char (c : Char)
  | bool (b : Bool)
  /-- of a type with so many bits -/
  | int (bits : Nat) (n : Int)
  deriving DecidableEq, Repr

def spaces (n : Nat) : Str := List.replicate n ' '

/-- The text with spaces around it where the width asks for more. -/
def placed (usual : Align) (s : SpecSyn) (body : Str) : Str :=
  let missing := s.options.width.getD 0 - body.length
  match s.options.align.getD usual with
  | .Left => body ++ spaces missing
  | .Right => spaces missing ++ body
  | .Center => spaces (missing / 2) ++ body ++ spaces (missing - missing / 2)

/-- A text: the precision is the most characters shown; to the left, unless said otherwise. -/
def stringField (s : SpecSyn) (text : Str) : Str :=
  placed .Left s (match s.options.precision with
    | none => text
    | some most => text.take most)

/-- A number: sign, then `0x` etc. for `#`, then the digits; to the right, unless said otherwise. For `0` the width is
reached with zeros before the digits, whatever the alignment. The precision does not matter. -/
def numberField (s : SpecSyn) (negative : Bool) (mark digits : Str) : Str :=
  let lead := (if negative then ['-'] else if s.sign = some .Plus then ['+'] else []) ++
    (if s.alternate then mark else [])
  if s.zero then
    lead ++ List.replicate (s.options.width.getD 0 - lead.length - digits.length) '0' ++ digits
  else placed .Right s (lead ++ digits)

/-- The number whose binary digits are those of `n` in two's complement. -/
def unsigned (bits : Nat) (n : Int) : Nat := (n % (2 : Int) ^ bits).toNat

/-- What is shown of a value; `none` where the value is not shown by such a placeholder (it does not compile), or where
this specification does not say. -/
def field (v : Value) (s : SpecSyn) : Option Str :=
  match v, s.ty with
  | .text t, .display => some (stringField s t)
  | .char c, .display => some (stringField s [c])
  | .bool b, .display | .bool b, .debug | .bool b, .lowerHexDebug | .bool b, .upperHexDebug =>
    some (stringField s (if b then str "true" else str "false"))
  | .int _ n, .display | .int _ n, .debug =>
    some (numberField s (decide (n < 0)) [] (Nat.toDigits 10 n.natAbs))
  | .int bits n, .lowerHex | .int bits n, .lowerHexDebug =>
    some (numberField s false (str "0x") (Nat.toDigits 16 (unsigned bits n)))
  | .int bits n, .upperHex | .int bits n, .upperHexDebug =>
    some (numberField s false (str "0x") ((Nat.toDigits 16 (unsigned bits n)).map Char.toUpper))
  | .int bits n, .octal => some (numberField s false (str "0o") (Nat.toDigits 8 (unsigned bits n)))
  | .int bits n, .binary => some (numberField s false (str "0b") (Nat.toDigits 2 (unsigned bits n)))
  | _, _ => none

/-- What a piece shows, `before` being the pieces before it. -/
def cell (args : List (MacroArg Value)) (scope : Str → Value) (st : Style) (before : List PieceSyn) :
    PieceSyn → Option Styled
  | .text s => some (paint s st)
  | .openBrace => some (paint ['{'] st)
  | .closeBrace => some (paint ['}'] st)
  | .arg ref spec => do
    let v ← valueFor args scope before ref
    let shown ← field v (specOf spec)
    some (paint shown ((specOf spec).style st))

/-- What a format string shows: its pieces one after the other. -/
def row (args : List (MacroArg Value)) (scope : Str → Value) (st : Style) (before : List PieceSyn) :
    List PieceSyn → Option Styled
  | [] => some []
  | p :: rest => do
    let first ← cell args scope st before p
    let others ← row args scope st (before ++ [p]) rest
    some (first ++ others)

/-- The specification without its width. -/
def unpadded (s : SpecSyn) : SpecSyn := { s with width := none }

/-- The value needs no more room than the width of the placeholder. -/
def Fits (v : Value) (s : SpecSyn) : Prop :=
  ∃ shown width, field v (unpadded s) = some shown ∧ s.options.width = some width ∧ shown.length ≤ width

/-- Every value fits in its placeholder. -/
def AllFit (args : List (MacroArg Value)) (scope : Str → Value) (t : List PieceSyn) : Prop :=
  ∀ before ref spec after, t = before ++ .arg ref spec :: after →
    ∃ v, valueFor args scope before ref = some v ∧ Fits v (specOf spec)

end Stylish.Spec.Fields
