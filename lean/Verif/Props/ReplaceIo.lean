import Verif.Props.Replace
import Verif.Props.SearchIo
/-
C114 for byte streams: replacing bytes.
-/

namespace Stylish.Props

open Spec

namespace Replace
variable {f : Replacement}

theorem encode_ascii (c : Char) (h : c.toNat < 128) : String.utf8EncodeChar c = [UInt8.ofNat c.toNat] := by
  have e : c.val.toNat = c.toNat := rfl
  unfold String.utf8EncodeChar
  simp only [e]
  rw [if_pos (by omega)]

theorem encode_high (c : Char) (h : 128 ≤ c.toNat) : ∀ b ∈ String.utf8EncodeChar c, 128 ≤ b.toNat := by
  have hv : c.toNat < 0xD800 ∨ 0xDFFF < c.toNat ∧ c.toNat < 0x110000 := c.valid
  have e : c.val.toNat = c.toNat := rfl
  unfold String.utf8EncodeChar
  simp only [e]
  rw [if_neg (by omega)]
  split
  · simp; omega
  · split
    · simp; omega
    · simp; omega

theorem high_bytes (l : Bytes) (h : ∀ b ∈ l, 128 ≤ b.toNat) : l.flatMap f.onBytes = l := by
  induction l with
  | nil => rfl
  | cons b l ih =>
    have hb := h b (by simp)
    rw [List.flatMap_cons, Replacement.onBytes, if_neg (by omega), ih fun x hx => h x (by simp [hx])]
    rfl

/-- Byte by byte or character by character, it is the same. -/
theorem bytes_flatMap (hf : f.OnlyAscii) (s : Str) : (utf8 s).flatMap f.onBytes = utf8 (s.flatMap f) := by
  induction s with
  | nil => rfl
  | cons c s ih =>
    rw [Search.utf8_cons, List.flatMap_append, ih, List.flatMap_cons]
    have e : ∀ a b : Str, utf8 (a ++ b) = utf8 a ++ utf8 b := fun a b => by simp [utf8]
    rw [e]
    congr 1
    by_cases h : c.toNat < 128
    · have hn : (UInt8.ofNat c.toNat).toNat = c.toNat := by simp; omega
      rw [encode_ascii c h, List.flatMap_singleton, Replacement.onBytes, hn, if_pos h, Char.ofNat_toNat]
    · rw [high_bytes _ (encode_high c (by omega)), hf c (by omega)]
      simp [utf8]

end Replace

variable {T : Type} [StdIoWrite T]

/-- C114 for `io::Ansi`: a replacement of ASCII characters may be made on the bytes that reached the stream, whatever it took at a
time; what comes out is the UTF-8 of the output of the same writes with the characters replaced. -/
theorem C114_io (f : Replacement) (ha : f.KeepsAscii) (hn : f.LeavesNoneOut) (hf : f.OnlyAscii) (k : IoSink T) (t : T)
    (calls : List Arguments) (logs : List (List Chunk)) (hl : Logs calls logs) (bytes : Bytes) :
    (IoAnsiFmtSent k t calls bytes → ∃ out, AnsiWrote stringSink StdString.new (f.writes logs.flatten) out ∧
      bytes.flatMap f.onBytes = utf8 out) ∧
    (IoAnsiFmtFinished k t calls bytes → ∃ out, AnsiFinished stringSink StdString.new (f.writes logs.flatten) out ∧
      bytes.flatMap f.onBytes = utf8 out) := by
  have hx := ansiFinished_exists stringSink stringSink_accepting StdString.new logs.flatten
  constructor
  · rintro ⟨fuel, a, h1, h2⟩
    have e := ioAnsi_writeFmts k calls logs hl (IoAnsi.new t : IoAnsi fuel T)
    rw [h1] at e
    have e1 : k.delivered a.inner = k.delivered t ++ _ := e.1
    rw [h2] at e1
    have := List.append_cancel_left (as := k.delivered t) e1
    refine ⟨_, (C114_ansi f ha hn stringSink StdString.new logs.flatten _).1 hx.1, ?_⟩
    rw [this]
    exact Replace.bytes_flatMap hf _
  · intro h
    refine ⟨_, (C114_ansi f ha hn stringSink StdString.new logs.flatten _).2 hx.2, ?_⟩
    rw [ioAnsiFmtFinished_eq k t calls logs hl bytes h]
    exact Replace.bytes_flatMap hf _

/-- C114 for `io::Plain`. -/
theorem C114_io_plain (f : Replacement) (hf : f.OnlyAscii) (k : IoSink T) (t : T) (calls : List Arguments)
    (logs : List (List Chunk)) (hl : Logs calls logs) (bytes : Bytes) (h : IoPlainFmtSent k t calls bytes) :
    bytes.flatMap f.onBytes = utf8 ((logs.flatten.flatMap Prod.fst).flatMap f) := by
  rw [ioPlainFmtSent_eq k t calls logs hl bytes h]
  exact Replace.bytes_flatMap hf _

/-! ### Samples -/

/-- The conditions are met; the stream takes little at a time. -/
example : windowsLines.OnlyAscii ∧ Logs [⟨.writeStr ['é', '\n'] .done⟩] [[(['é', '\n'], Style.default)]] ∧
    IoAnsiFmtFinished scheduleSink ⟨[some 0, none, some 1], []⟩ [⟨.writeStr ['é', '\n'] .done⟩] (utf8 ['é', '\n']) ∧
    (utf8 ['é', '\n']).flatMap windowsLines.onBytes = utf8 ['é', '\r', '\n'] := by
  refine ⟨?_, ⟨rfl, fun args h => ?_⟩, ⟨9, ⟨⟨[], utf8 ['é', '\n']⟩, Style.default⟩, ⟨⟨[], utf8 ['é', '\n']⟩, Style.default⟩,
    by decide +kernel, by decide +kernel, by decide +kernel⟩, by decide +kernel⟩
  · intro c hc
    have : c ≠ '\n' := by rintro rfl; revert hc; decide
    rw [windowsLines, if_neg this]
  · obtain rfl := List.mem_singleton.1 h
    exact ⟨rfl, trivial⟩

end Stylish.Props
