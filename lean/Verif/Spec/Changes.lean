import Verif.Spec.Text
/-
Specification: counting style changes.
-/

namespace Stylish.Spec

/-- The number of places where the style differs from the one before, starting from a given style and
coming back to the default style at the end. -/
def changesFrom : Style → List Style → Nat
  | prev, [] => if prev = ⟨.Default, .Default, .Normal⟩ then 0 else 1
  | prev, st :: rest => (if st = prev then 0 else 1) + changesFrom st rest

/-- The number of style changes in styled text that stands between text in the default style. -/
def changes (t : Styled) : Nat := changesFrom ⟨.Default, .Default, .Normal⟩ (t.map Prod.snd)

/-- The number of characters that HTML text has to escape. -/
def specials (t : Styled) : Nat := (t.map Prod.fst).countP (fun c => ['<', '>', '&', '"', '\''].contains c)

end Stylish.Spec
