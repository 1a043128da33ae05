import Verif.Model.Basic
/-
Specification: a strict UTF-8 decoder that receives its input byte by byte, written from RFC 3629 (the bit
layout of section 3, the exclusions of section 4).
-/

namespace Stylish.Spec

/-- The decoder in the middle of its work: the characters so far; how many more bytes the current character
needs, the least number it may stand for (no overlong encodings), and its bits so far. -/
structure Utf8Decoder where
  out : Str
  need : Nat
  low : Nat
  bits : Nat
  deriving DecidableEq, Repr

/-- The character with this number, if there is one: at least `low`, not a surrogate, not above U+10FFFF. -/
def scalar (low n : Nat) : Option Char :=
  if low ≤ n ∧ (n < 0xD800 ∨ 0xE000 ≤ n) ∧ n ≤ 0x10FFFF then some (Char.ofNat n) else none

/-- Receive one byte. -/
def Utf8Decoder.step (d : Utf8Decoder) (byte : UInt8) : Option Utf8Decoder :=
  let b := byte.toNat
  match d.need with
  | 0 =>
    if b < 0x80 then some { d with out := d.out ++ [Char.ofNat b] }
    else if b < 0xC0 then none
    else if b < 0xE0 then some { d with need := 1, low := 0x80, bits := b - 0xC0 }
    else if b < 0xF0 then some { d with need := 2, low := 0x800, bits := b - 0xE0 }
    else if b < 0xF8 then some { d with need := 3, low := 0x10000, bits := b - 0xF0 }
    else none
  | n + 1 =>
    if 0x80 ≤ b ∧ b < 0xC0 then
      let bits := d.bits * 64 + (b - 0x80)
      if n = 0 then (scalar d.low bits).map fun c => ⟨d.out ++ [c], 0, 0, 0⟩
      else some { d with need := n, bits := bits }
    else none

/-- Receive bytes. -/
def Utf8Decoder.feed (d : Utf8Decoder) : Bytes → Option Utf8Decoder
  | [] => some d
  | b :: rest => (d.step b).bind fun d => d.feed rest

/-- Decode a whole string of bytes; `none` if it is not well-formed. -/
def decodeUtf8 (s : Bytes) : Option Str :=
  ((⟨[], 0, 0, 0⟩ : Utf8Decoder).feed s).bind fun d => if d.need = 0 then some d.out else none

example : decodeUtf8 [0x68, 0xC3, 0xA9, 0xF0, 0x9F, 0xA6, 0x80] = some ['h', 'é', '🦀'] := by decide +kernel
example : decodeUtf8 [0xC0, 0x80] = none ∧ decodeUtf8 [0xED, 0xA0, 0x80] = none ∧ decodeUtf8 [0xC3] = none ∧
    decodeUtf8 [0xA9] = none ∧ decodeUtf8 [0xF4, 0x90, 0x80, 0x80] = none := by decide +kernel

end Stylish.Spec
