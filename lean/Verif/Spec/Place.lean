import Verif.Spec.Browser
/-
Specification: text in a page at other places than between tags (C108): in an element whose content is text only and is
read with character references, as `title` and `textarea` are (the HTML standard, 13.2.5.2, 13.2.5.9 - 13.2.5.11); and the
check whether an end tag is the one of the element. Attribute values are in `Spec/Browser.lean`.
-/

namespace Stylish.Spec.Browser

/-- NUL is U+FFFD there. -/
def noNulChar (c : Char) : Char := if c = '\x00' then '\uFFFD' else c

/-- Is what follows `<` the end tag of the element, `/name` and then white space, `/` or `>`? Case does not matter. -/
def endsHere (name : Str) : Str → Bool
  | '/' :: cs =>
    (cs.take name.length).map (fun c => (nameChar c).2) = name &&
      (match (cs.drop name.length).head? with
        | some c => isSpace c || c = '/' || c = '>'
        | none => false)
  | _ => false

/-- The text of the element, and the page from its end tag on. The first `skip` characters are used up already. -/
def textOnly (names : Names) (name : Str) : Nat → Str → Str × Str
  | _, [] => ([], [])
  | k + 1, _ :: cs => textOnly names name k cs
  | 0, c :: cs =>
    if c = '&' then
      match reference names cs with
      | some r => let (t, rest) := textOnly names name r.length cs; (r.stands ++ t, rest)
      | none => let (t, rest) := textOnly names name 0 cs; ('&' :: t, rest)
    else if c = '<' ∧ endsHere name cs = true then ([], c :: cs)
    else let (t, rest) := textOnly names name 0 cs; (noNulChar c :: t, rest)

/-- The same of a page, after the start tag. -/
def textElement (names : Names) (name page : Str) : Str × Str := textOnly names name 0 (newlines page)

end Stylish.Spec.Browser
