import Verif.Spec.Vt
/-
Specification vocabulary: a terminal that something else left in another graphic rendition (C104).
-/

namespace Stylish.Spec.Vt

/-- After the first element that is not `p` there is one that is. -/
def back {α : Type} (p : α → Bool) (l : List α) : Bool := (l.dropWhile p).any p

/-- In the styles so far, the last of them that of the character to be shown, has the text gone back from some style to
none at all? -/
def cleaned (styles : List Style) : Bool := back (· = Style.default) styles

/-- The intensities since the last normal one. -/
def strong (styles : List Style) : List Intensity :=
  (styles.map Style.intensity).reverse.takeWhile (· ≠ .Normal)

/-- Bold and faint on a terminal that was showing `p` when the text began: on a terminal where they exclude each
other, those of `p` until the text first has an intensity, from then on those of the style. On one where they are
independent, everything the text has turned on since it was last back at normal, and those of `p` until it has gone
back. -/
def weights (kind : TermKind) (p : Pen) (styles : List Style) (st : Style) : Bool × Bool :=
  if kind = .exclusive then
    if cleaned styles ∨ styles.any (·.intensity ≠ .Normal) then (st.intensity = .Bold, st.intensity = .Faint)
    else (p.bold, p.faint)
  else
    let kept := !cleaned styles && !back (· = .Normal) (styles.map Style.intensity)
    ((strong styles).contains .Bold || kept && p.bold, (strong styles).contains .Faint || kept && p.faint)

/-- How a character in the style `st` looks on a terminal that was showing `p` when the text began, `styles` being the
styles of the characters of the text up to this one. Once the text has gone back to no style at all, the colours and the
other attributes are right. Before, a colour is right if the text has had one, and `p`'s otherwise; the other attributes
are those of `p`. -/
def lookFrom (kind : TermKind) (p : Pen) (styles : List Style) (st : Style) : Pen :=
  let base := if cleaned styles then .plain else p
  { base with
    fg := if cleaned styles ∨ styles.any (·.foreground ≠ .Default) then ink st.foreground else p.fg
    bg := if cleaned styles ∨ styles.any (·.background ≠ .Default) then ink st.background else p.bg
    bold := (weights kind p styles st).1
    faint := (weights kind p styles st).2 }

/-- What happens on such a terminal for a text, after a text in the styles `before`. -/
def seenFrom (kind : TermKind) (p : Pen) : List Style → Styled → List Event
  | _, [] => []
  | before, (c, st) :: rest =>
    (if isControl c then .execute c else .print c (lookFrom kind p (before ++ [st]) st)) ::
      seenFrom kind p (before ++ [st]) rest

end Stylish.Spec.Vt
