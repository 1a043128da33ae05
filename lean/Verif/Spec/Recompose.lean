import Verif.Spec.Text
/-
Specification vocabulary: normalising an output, as editors, forms, databases and version control do (C113).

External: UAX #15. `starts` are the characters before which a text may be cut for normalisation (they never join what stands before
them, as a combining accent does); the laws are those of normalisation form C. Only they are used, not the tables.
-/

namespace Stylish.Spec

/-- The characters HTML text is escaped for. -/
def markupChars : List Char := ['<', '>', '&', '"', '\'']

/-- Unicode's normalisation form C, as far as it matters here. -/
structure Recomposer where
  nf : Str → Str
  starts : Char → Bool
  empty : ∀ s, nf s = [] ↔ s = []
  ascii_starts : ∀ c : Char, c.toNat < 128 → starts c = true
  ascii : ∀ c : Char, c.toNat < 128 → nf [c] = [c]
  cut : ∀ a c b, starts c = true → nf (a ++ c :: b) = nf a ++ nf (c :: b)
  nothing_new : ∀ s, ∀ c ∈ markupChars, c ∈ nf s → c ∈ s

namespace Recomposer
variable (N : Recomposer)

/-- The same writes, with each text normalised. -/
def writes (chs : List Chunk) : List Chunk := chs.map fun ch => (N.nf ch.1, ch.2)

/-- No text that is written begins with a character that would join what stands before it. -/
def Whole (chs : List Chunk) : Prop := ∀ s st, (s, st) ∈ chs → ∀ c r, s = c :: r → N.starts c = true

/-- Nor does such a character come right after one that is escaped. -/
def Apart (chs : List Chunk) : Prop :=
  ∀ s st, (s, st) ∈ chs → ∀ a c d r, s = a ++ c :: d :: r → c ∈ markupChars → N.starts d = true

end Recomposer

end Stylish.Spec
