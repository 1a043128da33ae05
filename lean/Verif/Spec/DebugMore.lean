import Verif.Spec.Debug
import Verif.Spec.Text
/-
Specification for C117: string literals as Rust reads them, and the words that describe the styles of an attributed string.
-/

namespace Stylish.Spec.Debug

/-- Reading a string literal: at a character, after `\`, after `\u`, and within the braces after it. -/
inductive LitState where
  | chars | escape | brace
  | hex (n : Nat)

/-- The value of a digit. -/
def hexValue (c : Char) : Option Nat :=
  if '0' ≤ c ∧ c ≤ '9' then some (c.toNat - '0'.toNat)
  else if 'a' ≤ c ∧ c ≤ 'f' then some (c.toNat - 'a'.toNat + 10)
  else none

/-- A string literal of Rust, after its first `"`: its value, and what comes after it. -/
def literal : LitState → Str → Option (Str × Str)
  | _, [] => none
  | .chars, c :: r =>
    if c = '"' then some ([], r)
    else if c = '\\' then literal .escape r
    else (literal .chars r).map fun x => (c :: x.1, x.2)
  | .escape, c :: r =>
    if c = '0' then (literal .chars r).map fun x => ('\x00' :: x.1, x.2)
    else if c = 't' then (literal .chars r).map fun x => ('\t' :: x.1, x.2)
    else if c = 'r' then (literal .chars r).map fun x => ('\r' :: x.1, x.2)
    else if c = 'n' then (literal .chars r).map fun x => ('\n' :: x.1, x.2)
    else if c = '"' ∨ c = '\\' ∨ c = '\'' then (literal .chars r).map fun x => (c :: x.1, x.2)
    else if c = 'u' then literal .brace r
    else none
  | .brace, c :: r => if c = '{' then literal (.hex 0) r else none
  | .hex n, c :: r =>
    if c = '}' then (literal .chars r).map fun x => (Char.ofNat n :: x.1, x.2)
    else match hexValue c with
      | some d => literal (.hex (16 * n + d)) r
      | none => none

/-- The words for a style. -/
def styleWords (st : Style) : List Str :=
  [str "Style", str "foreground", colorName st.foreground, str "background", colorName st.background, str "intensity",
    intensityName st.intensity]

/-- The words for the styles of a text written like this: for each write the byte it starts at, and its style. -/
def startWords (n : Nat) : List Chunk → List Str
  | [] => []
  | (s, st) :: rest => Nat.toDigits 10 n :: styleWords st ++ startWords (n + (utf8 s).length) rest

end Stylish.Spec.Debug
