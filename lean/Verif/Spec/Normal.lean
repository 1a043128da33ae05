import Verif.Spec.RawNames
/-
Specification vocabulary: identifiers that differ only in how Unicode spells them.

Rust takes two identifiers for the same if their normal forms C are the same (the Rust Reference, "Identifiers"): the
compiler normalises the identifiers in the source, and those a macro makes; it does not touch string literals.
-/

namespace Stylish.Spec

/-- Unicode's normalisation form C, as far as it matters here: identifiers stay identifiers (external: UAX #15, #31). -/
structure NormalForm (E : Env) where
  nfc : Str → Str
  idem : ∀ s, nfc (nfc s) = nfc s
  ident : ∀ s, Syntax.Ident E s → Syntax.Ident E (nfc s)

namespace NormalForm
variable {E : Env} (N : NormalForm E)

/-- The same identifier. -/
def Same (a b : Str) : Prop := N.nfc a = N.nfc b

/-- The argument `name = value`, as a macro finds it, for a name as written in the source. -/
def arg {Y : Type} (written : Str) (value : SynExpr Y) : Tok Y := NameTok.arg ⟨false, N.nfc written⟩ value

/-- The variables at the place of the call: one for each identifier. -/
def scope {X : Type} (vars : Str → X) (name : Str) : X := vars (N.nfc name)

end NormalForm

/-- The format string `{name}`. -/
def named (name : Str) : Str := str "{" ++ name ++ str "}"

end Stylish.Spec
