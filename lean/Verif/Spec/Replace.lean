import Verif.Spec.Recompose
/-
Specification vocabulary: an output whose characters are replaced one by one, as line end conversion, transliteration to another
character set and the removal of control characters do (C114).
-/

namespace Stylish.Spec

/-- What each character is replaced by: itself, other text, or nothing. -/
abbrev Replacement := Char → Str

namespace Replacement
variable (f : Replacement)

/-- Printable ASCII characters and ESC are left as they are. -/
def KeepsAscii : Prop := ∀ c : Char, (0x20 ≤ c.toNat ∧ c.toNat ≤ 0x7E) ∨ c = '\x1b' → f c = [c]

/-- Nothing is left out. -/
def LeavesNoneOut : Prop := ∀ c, f c ≠ []

/-- The replacement in each text that is written. -/
def writes (chs : List Chunk) : List Chunk := chs.map fun ch => (ch.1.flatMap f, ch.2)

/-- Only ASCII characters are replaced. -/
def OnlyAscii : Prop := ∀ c : Char, 128 ≤ c.toNat → f c = [c]

/-- The replacement byte by byte, without knowing about UTF-8. -/
def onBytes (b : UInt8) : Bytes := if b.toNat < 128 then utf8 (f (Char.ofNat b.toNat)) else [b]

end Replacement

end Stylish.Spec
