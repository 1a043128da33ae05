import Verif.Spec.Utf8
/-
The strict decoder undoes the encoding.
-/

namespace Stylish

open Spec

theorem Utf8Decoder.feed_append (d : Utf8Decoder) (s t : Bytes) :
    d.feed (s ++ t) = (d.feed s).bind fun d => d.feed t := by
  induction s generalizing d with
  | nil => rfl
  | cons b s ih =>
    simp only [List.cons_append, Utf8Decoder.feed]
    cases d.step b with
    | none => rfl
    | some d => exact ih d

theorem scalar_char (c : Char) (low : Nat) (h : low ≤ c.toNat) : scalar low c.toNat = some c := by
  have hv : c.toNat < 0xD800 ∨ 0xDFFF < c.toNat ∧ c.toNat < 0x110000 := c.valid
  unfold scalar
  rw [if_pos ⟨h, by omega, by omega⟩]
  simp [Char.ofNat_toNat]

theorem feed_char (out : Str) (c : Char) :
    (⟨out, 0, 0, 0⟩ : Utf8Decoder).feed (String.utf8EncodeChar c) = some ⟨out ++ [c], 0, 0, 0⟩ := by
  have hv : c.toNat < 0xD800 ∨ 0xDFFF < c.toNat ∧ c.toNat < 0x110000 := c.valid
  have e : c.val.toNat = c.toNat := rfl
  unfold String.utf8EncodeChar
  simp only [e]
  split
  · rename_i h
    have h1 : (UInt8.ofNat c.toNat).toNat = c.toNat := by simp; omega
    simp only [Utf8Decoder.feed, Utf8Decoder.step, h1]
    rw [if_pos (by omega)]
    simp [Char.ofNat_toNat]
  split
  · rename_i h0 h
    have h1 : (UInt8.ofNat (c.toNat / 64 % 32 + 192)).toNat = c.toNat / 64 + 192 := by simp; omega
    have h2 : (UInt8.ofNat (c.toNat % 64 + 128)).toNat = c.toNat % 64 + 128 := by simp; omega
    simp only [Utf8Decoder.feed, Utf8Decoder.step, h1, h2]
    rw [if_neg (by omega), if_neg (by omega), if_pos (by omega)]
    simp only [Option.bind_some]
    rw [if_pos (by omega), if_pos trivial]
    have : (c.toNat / 64 + 192 - 192) * 64 + (c.toNat % 64 + 128 - 128) = c.toNat := by omega
    rw [this, scalar_char c _ (by omega)]
    rfl
  split
  · rename_i h0 h' h
    have h1 : (UInt8.ofNat (c.toNat / 4096 % 16 + 224)).toNat = c.toNat / 4096 + 224 := by simp; omega
    have h2 : (UInt8.ofNat (c.toNat / 64 % 64 + 128)).toNat = c.toNat / 64 % 64 + 128 := by simp; omega
    have h3 : (UInt8.ofNat (c.toNat % 64 + 128)).toNat = c.toNat % 64 + 128 := by simp; omega
    simp only [Utf8Decoder.feed, Utf8Decoder.step, h1, h2, h3]
    rw [if_neg (by omega), if_neg (by omega), if_neg (by omega), if_pos (by omega)]
    simp only [Option.bind_some]
    rw [if_pos (by omega), if_neg (by omega)]
    simp only [Option.bind_some]
    rw [if_pos (by omega), if_pos trivial]
    have : ((c.toNat / 4096 + 224 - 224) * 64 + (c.toNat / 64 % 64 + 128 - 128)) * 64 +
        (c.toNat % 64 + 128 - 128) = c.toNat := by omega
    rw [this, scalar_char c _ (by omega)]
    rfl
  · rename_i h0 h' h
    have h1 : (UInt8.ofNat (c.toNat / 262144 % 8 + 240)).toNat = c.toNat / 262144 + 240 := by simp; omega
    have h2 : (UInt8.ofNat (c.toNat / 4096 % 64 + 128)).toNat = c.toNat / 4096 % 64 + 128 := by simp; omega
    have h3 : (UInt8.ofNat (c.toNat / 64 % 64 + 128)).toNat = c.toNat / 64 % 64 + 128 := by simp; omega
    have h4 : (UInt8.ofNat (c.toNat % 64 + 128)).toNat = c.toNat % 64 + 128 := by simp; omega
    simp only [Utf8Decoder.feed, Utf8Decoder.step, h1, h2, h3, h4]
    rw [if_neg (by omega), if_neg (by omega), if_neg (by omega), if_neg (by omega), if_pos (by omega)]
    simp only [Option.bind_some]
    rw [if_pos (by omega), if_neg (by omega)]
    simp only [Option.bind_some]
    rw [if_pos (by omega), if_neg (by omega)]
    simp only [Option.bind_some]
    rw [if_pos (by omega), if_pos trivial]
    have : (((c.toNat / 262144 + 240 - 240) * 64 + (c.toNat / 4096 % 64 + 128 - 128)) * 64 +
        (c.toNat / 64 % 64 + 128 - 128)) * 64 + (c.toNat % 64 + 128 - 128) = c.toNat := by omega
    rw [this, scalar_char c _ (by omega)]
    rfl

theorem feed_utf8 (out s : Str) :
    (⟨out, 0, 0, 0⟩ : Utf8Decoder).feed (utf8 s) = some ⟨out ++ s, 0, 0, 0⟩ := by
  induction s generalizing out with
  | nil => simp [utf8, Utf8Decoder.feed]
  | cons c s ih =>
    have e : utf8 (c :: s) = String.utf8EncodeChar c ++ utf8 s := rfl
    rw [e, Utf8Decoder.feed_append, feed_char, Option.bind_some, ih]
    simp

theorem decodeUtf8_utf8 (s : Str) : decodeUtf8 (utf8 s) = some s := by
  simp [decodeUtf8, feed_utf8]

theorem utf8_injective (s t : Str) (h : utf8 s = utf8 t) : s = t := by
  have := congrArg decodeUtf8 h
  rw [decodeUtf8_utf8, decodeUtf8_utf8] at this
  exact Option.some.inj this

end Stylish
