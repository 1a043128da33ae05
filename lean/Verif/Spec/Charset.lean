import Verif.Spec.Text
/-
Specification for C122: UTF-8 that is read in another encoding, one with a character per byte, as a terminal that is set up for
Latin-1 does, or a browser if a page does not say that it is in UTF-8.
-/

namespace Stylish.Spec

/-- An encoding with one character per byte. -/
abbrev Charset := UInt8 → Char

namespace Charset
variable (E : Charset)

/-- It extends ASCII, as Latin-1, the other parts of ISO 8859, Windows-1252, code page 437, KOI8-R and Mac OS Roman do. -/
structure ExtendsAscii : Prop where
  ascii : ∀ b, b.toNat < 128 → E b = Char.ofNat b.toNat
  other : ∀ b, 128 ≤ b.toNat → 128 ≤ (E b).toNat

/-- What a text in UTF-8 is taken for. -/
def misread (s : Str) : Str := (utf8 s).map E

/-- The same writes, of texts that are misread. -/
def writes (chs : List Chunk) : List Chunk := chs.map fun ch => (E.misread ch.1, ch.2)

/-- ISO 8859-1. -/
def latin1 : Charset := fun b => Char.ofNat b.toNat

end Charset

example : Charset.latin1.misread (str "naïve") = str "naÃ¯ve" := by decide +kernel

end Stylish.Spec
