import Verif.Spec.Field
import Verif.Spec.DebugMore
import Verif.Spec.Vt
/-
Specification for C120: texts and characters that are shown with `{:?}`: as literals of Rust.
-/

namespace Stylish.Spec.Quoted

open Syntax Debug

/-- A text or a `char`, to be shown with `{:?}`, or another value of std. -/
inductive Value where
  | text (s : Str)
  | char (c : Char)
  | other (v : Fields.Value)

/-- The character a character literal of Rust stands for. An escape is as in a string literal. -/
def charLiteral : Str → Option Char
  | q :: c :: r =>
    if q ≠ '\'' then none
    else if c = '\\' then
      (if r.getLast? = some '\'' then
        (match literal .escape (r.dropLast ++ ['"']) with
        | some ([d], []) => some d
        | _ => none)
      else none)
    else if c ≠ '\'' ∧ r = ['\''] then some c
    else none
  | _ => none

/-- This is shown of a value: a literal that means just this value; of the other values their field. -/
def Means (s : SpecSyn) (shown : Str) : Value → Prop
  | .text v => ∃ r, shown = '"' :: r ∧ literal .chars r = some (v, [])
  | .char c => charLiteral shown = some c
  | .other v => Fields.field v s = some shown

/-- The placeholder says `?`, `x?` or `X?`. -/
def IsDebug (ty : Ty) : Prop := ty = .debug ∨ ty = .lowerHexDebug ∨ ty = .upperHexDebug

/-- The characters are all to be seen: there is no control character. -/
def Clean (s : Str) : Prop := ∀ c ∈ s, Vt.isControl c = false

/-- Texts and `char`s are shown with `{:?}`, and nothing else has control characters: neither the text of the format string
nor what is shown of other values. -/
def Careful (args : List (MacroArg Value)) (scope : Str → Value) (t : List PieceSyn) : Prop :=
  ∀ before p after, t = before ++ p :: after →
    match p with
    | .text s => Clean s
    | .openBrace => True
    | .closeBrace => True
    | .arg ref spec =>
      ∃ v, valueFor args scope before ref = some v ∧
        match v with
        | .other v => ∃ shown, Fields.field v (specOf spec) = some shown ∧ Clean shown
        | _ => IsDebug (specOf spec).ty

end Stylish.Spec.Quoted
