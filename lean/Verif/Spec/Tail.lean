import Verif.Spec.Stained
import Verif.Spec.Browser
/-
Specification vocabulary: the end of an output without its beginning, as of `tail` or a log that is rotated (C106).
-/

namespace Stylish.Spec

/-- A text without its first `n` lines. -/
def dropLines : Nat → Str → Str
  | 0, s => s
  | _ + 1, [] => []
  | n + 1, c :: s => if c = '\n' then dropLines n s else dropLines (n + 1) s

/-- Bold and faint on a fresh terminal if the text before, the last character of which was in the style `cur`, is missing;
`styles` are the styles of the characters from there up to the one that is shown, in the style `st`. They are not seen
until the intensity has changed. Then they are right on a terminal where they exclude each other; on one where they are
independent, everything is on that the text has turned on since it was last back at normal. -/
def Vt.weightsAfter (kind : TermKind) (cur : Style) (styles : List Style) (st : Style) : Bool × Bool :=
  let changed := styles.dropWhile (·.intensity = cur.intensity)
  if kind = .exclusive then
    (changed ≠ [] && st.intensity = .Bold, changed ≠ [] && st.intensity = .Faint)
  else
    ((strong changed).contains .Bold, (strong changed).contains .Faint)

/-- How a character looks then: a colour is right once there was a character in no style or one in another colour than in
`cur`, and not seen before that. -/
def Vt.lookAfter (kind : TermKind) (cur : Style) (styles : List Style) (st : Style) : Vt.Pen :=
  { Vt.Pen.plain with
    fg := if styles.any (· = Style.default) ∨ styles.any (·.foreground ≠ cur.foreground) then ink st.foreground
      else .default
    bg := if styles.any (· = Style.default) ∨ styles.any (·.background ≠ cur.background) then ink st.background
      else .default
    bold := (weightsAfter kind cur styles st).1
    faint := (weightsAfter kind cur styles st).2 }

/-- What happens on such a terminal for the rest of a text, after some of it in the styles `before`. -/
def Vt.seenAfter (kind : TermKind) (cur : Style) : List Style → Styled → List Vt.Event
  | _, [] => []
  | before, (c, st) :: t =>
    (if isControl c then .execute c else .print c (lookAfter kind cur (before ++ [st]) st)) ::
      seenAfter kind cur (before ++ [st]) t

/-- On a page: what is in the style `cur` at the start is shown in none, everything else as it is. -/
def Browser.unstyled (cur : Style) : Styled → Styled
  | [] => []
  | (c, st) :: t => if st = cur then (c, Style.default) :: unstyled cur t else (c, st) :: t

end Stylish.Spec
