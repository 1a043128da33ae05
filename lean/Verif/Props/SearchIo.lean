import Verif.Props.Search
import Verif.Props.IoText
/-
C110 for byte streams: searching among the bytes.
-/

namespace Stylish.Props

open Spec

namespace Search

/-- The first byte of a character tells how many there are; the others are never the first of a character. -/
theorem utf8_char_cases (c : Char) :
    (∃ a, String.utf8EncodeChar c = [a] ∧ a.toNat < 128) ∨
    (∃ a x, String.utf8EncodeChar c = [a, x] ∧ 192 ≤ a.toNat ∧ a.toNat < 224 ∧ 128 ≤ x.toNat ∧ x.toNat < 192) ∨
    (∃ a x y, String.utf8EncodeChar c = [a, x, y] ∧ 224 ≤ a.toNat ∧ a.toNat < 240 ∧
      128 ≤ x.toNat ∧ x.toNat < 192 ∧ 128 ≤ y.toNat ∧ y.toNat < 192) ∨
    (∃ a x y z, String.utf8EncodeChar c = [a, x, y, z] ∧ 240 ≤ a.toNat ∧
      128 ≤ x.toNat ∧ x.toNat < 192 ∧ 128 ≤ y.toNat ∧ y.toNat < 192 ∧ 128 ≤ z.toNat ∧ z.toNat < 192) := by
  have hv : c.toNat < 0xD800 ∨ 0xDFFF < c.toNat ∧ c.toNat < 0x110000 := c.valid
  have e : c.val.toNat = c.toNat := rfl
  unfold String.utf8EncodeChar
  simp only [e]
  split
  · exact .inl ⟨_, rfl, by simp; omega⟩
  split
  · exact .inr (.inl ⟨_, _, rfl, by simp; omega, by simp; omega, by simp; omega, by simp; omega⟩)
  split
  · exact .inr (.inr (.inl ⟨_, _, _, rfl, by simp; omega, by simp; omega, by simp; omega, by simp; omega, by simp; omega,
      by simp; omega⟩))
  · exact .inr (.inr (.inr ⟨_, _, _, _, rfl, by simp; omega, by simp; omega, by simp; omega, by simp; omega, by simp; omega,
      by simp; omega, by simp; omega⟩))

theorem utf8_char_injective (c d : Char) (h : String.utf8EncodeChar c = String.utf8EncodeChar d) : c = d := by
  have := utf8_injective [c] [d] (by simp [utf8, h])
  simpa using this

theorem utf8_readable (c d : Char) (x y : Bytes)
    (h : String.utf8EncodeChar c ++ x = String.utf8EncodeChar d ++ y) : c = d := by
  apply utf8_char_injective
  rcases utf8_char_cases c with ⟨a, e, h1⟩ | ⟨a, _, e, h1, h2, _⟩ | ⟨a, _, _, e, h1, h2, _⟩ | ⟨a, _, _, _, e, h1, _⟩ <;>
  rcases utf8_char_cases d with ⟨a', e', h1'⟩ | ⟨a', _, e', h1', h2', _⟩ | ⟨a', _, _, e', h1', h2', _⟩ |
    ⟨a', _, _, _, e', h1', _⟩ <;>
  rw [e, e'] at h ⊢ <;>
  simp only [List.cons_append, List.nil_append, List.cons.injEq] at h ⊢ <;>
  first
    | (exfalso; have := congrArg UInt8.toNat h.1; omega)
    | simp_all

theorem utf8_first (c : Char) : ∃ a l, String.utf8EncodeChar c = a :: l ∧ (a.toNat < 128 ∨ 192 ≤ a.toNat) ∧
    ∀ x ∈ l, 128 ≤ x.toNat ∧ x.toNat < 192 := by
  rcases utf8_char_cases c with ⟨a, e, h1⟩ | ⟨a, x, e, h1, h2, h3⟩ | ⟨a, x, y, e, h1, h2, h3⟩ | ⟨a, x, y, z, e, h1, h3⟩
  · exact ⟨a, _, e, .inl h1, by simp⟩
  · exact ⟨a, _, e, .inr h1, by simp; omega⟩
  · exact ⟨a, _, e, .inr (by omega), by simp; omega⟩
  · exact ⟨a, _, e, .inr (by omega), by simp; omega⟩

theorem utf8_cons (c : Char) (s : Str) : utf8 (c :: s) = String.utf8EncodeChar c ++ utf8 s := rfl

theorem utf8_prefix (w s : Str) (h : utf8 w <+: utf8 s) : w <+: s := by
  induction w generalizing s with
  | nil => exact List.nil_prefix
  | cons c w ih =>
    obtain ⟨r, h⟩ := h
    rw [utf8_cons, List.append_assoc] at h
    cases s with
    | nil =>
      obtain ⟨a, l, e, _⟩ := utf8_first c
      rw [e] at h
      simp [utf8] at h
    | cons d s =>
      rw [utf8_cons] at h
      obtain rfl := utf8_readable _ _ _ _ h
      obtain ⟨r', e⟩ := ih s ⟨r, List.append_cancel_left h⟩
      exact ⟨r', by simp [← e]⟩

/-- A word is found among the bytes of a text just if it is in the text. -/
theorem utf8_infix (w s : Str) : utf8 w <:+: utf8 s ↔ w <:+: s := by
  constructor
  · intro h
    cases w with
    | nil => exact List.nil_infix
    | cons c w =>
      induction s with
      | nil =>
        obtain ⟨a, l, e, _⟩ := utf8_first c
        rw [utf8_cons, e] at h
        simp [utf8] at h
      | cons d s ih =>
        rw [List.infix_iff_prefix_suffix] at h
        obtain ⟨q, hp, hs⟩ := h
        rw [utf8_cons d] at hs
        rcases suffix_cases hs with hs | ⟨q', hq, hq1, rfl⟩
        · exact (ih (List.infix_iff_prefix_suffix.2 ⟨q, hp, hs⟩)).trans (List.suffix_cons d s).isInfix
        · obtain ⟨p, hp1⟩ := hq1
          cases p with
          | nil =>
            rw [List.nil_append] at hp1
            subst hp1
            rw [← utf8_cons] at hp
            exact (utf8_prefix _ _ hp).isInfix
          | cons y p =>
            exfalso
            obtain ⟨a, l, e, h1, h2⟩ := utf8_first d
            obtain ⟨a', l', e', h1', h2'⟩ := utf8_first c
            rw [e, List.cons_append, List.cons.injEq] at hp1
            rw [utf8_cons, e'] at hp
            obtain ⟨r, hp⟩ := hp
            cases q' with
            | nil => exact hq rfl
            | cons x q' =>
              simp only [List.cons_append, List.cons.injEq] at hp
              have := h2 x (by rw [← hp1.2]; simp)
              rw [← hp.1] at this
              omega
  · rintro ⟨a, b, rfl⟩
    exact ⟨utf8 a, utf8 b, by simp [utf8]⟩

end Search

variable {T : Type} [StdIoWrite T]

/-- C110 for `io::Ansi`: among the bytes that reached the stream, whatever it took at a time, the bytes of a word are found if
the word is in one style in the text; and under the conditions on the word of `C110_ansi`, nothing else is found, not even
at a place where no character begins. -/
theorem C110_io (k : IoSink T) (t : T) (calls : List Arguments) (logs : List (List Chunk)) (hl : Logs calls logs)
    (bytes : Bytes) (h : IoAnsiFmtSent k t calls bytes ∨ IoAnsiFmtFinished k t calls bytes) (c : Char) (word : Str) :
    (inOneStyle (c :: word) (flatten logs.flatten) → utf8 (c :: word) <:+: bytes) ∧
    (inSequence c = false → '\x1b' ∉ c :: word → utf8 (c :: word) <:+: bytes →
      inOneStyle (c :: word) (flatten logs.flatten)) := by
  obtain ⟨out, ho, hb⟩ : ∃ out, (AnsiWrote stringSink StdString.new logs.flatten out ∨
      AnsiFinished stringSink StdString.new logs.flatten out) ∧ bytes = utf8 out := by
    rcases h with h | h
    · obtain ⟨fuel, a, h1, h2⟩ := h
      have e := ioAnsi_writeFmts k calls logs hl (IoAnsi.new t : IoAnsi fuel T)
      rw [h1] at e
      have e1 : k.delivered a.inner = k.delivered t ++ _ := e.1
      rw [h2] at e1
      have := List.append_cancel_left (as := k.delivered t) e1
      exact ⟨_, .inl (ansiFinished_exists stringSink stringSink_accepting StdString.new logs.flatten).1, this⟩
    · exact ⟨_, .inr (ansiFinished_exists stringSink stringSink_accepting StdString.new logs.flatten).2,
        ioAnsiFmtFinished_eq k t calls logs hl bytes h⟩
  subst hb
  rw [Search.utf8_infix]
  exact C110_ansi stringSink StdString.new logs.flatten out ho c word

/-- C110 for `io::Plain`: the bytes of a word are found just if the word is in the text. -/
theorem C110_io_plain (k : IoSink T) (t : T) (calls : List Arguments) (logs : List (List Chunk)) (hl : Logs calls logs)
    (bytes : Bytes) (h : IoPlainFmtSent k t calls bytes) (word : Str) :
    utf8 word <:+: bytes ↔ word <:+: logs.flatten.flatMap Prod.fst := by
  rw [ioPlainFmtSent_eq k t calls logs hl bytes h]
  exact Search.utf8_infix _ _

/-! ### Samples -/

/-- The conditions are met: `a`, then `é` in red, on a stream that takes little at a time; `é` is found, and the pair is not. -/
example : Logs [⟨sampleProg⟩, ⟨redProg⟩]
      [[(['a'], Style.default), (['b'], ⟨.Red, .Default, .Bold⟩), (['c'], Style.default)],
       [(['é'], ⟨.Red, .Default, .Normal⟩)]] ∧
    IoAnsiFmtFinished scheduleSink ⟨[some 3, some 0, none, none, some 9, some 9, some 9, some 9, some 0, none], []⟩
      [⟨sampleProg⟩, ⟨redProg⟩] (utf8 (str "a\x1b[31;1mb\x1b[0mc\x1b[31mé\x1b[0m")) ∧
    inSequence 'é' = false ∧ utf8 ['é'] <:+: utf8 (str "a\x1b[31;1mb\x1b[0mc\x1b[31mé\x1b[0m") ∧
    inSequence 'c' = false ∧ ¬ utf8 ['c', 'é'] <:+: utf8 (str "a\x1b[31;1mb\x1b[0mc\x1b[31mé\x1b[0m") := by
  refine ⟨⟨rfl, fun args h => ?_⟩,
    ⟨9, ⟨⟨[], utf8 (str "a\x1b[31;1mb\x1b[0mc\x1b[31mé")⟩, ⟨.Red, .Default, .Normal⟩⟩,
      ⟨⟨[], utf8 (str "a\x1b[31;1mb\x1b[0mc\x1b[31mé\x1b[0m")⟩, ⟨.Red, .Default, .Normal⟩⟩,
      by decide +kernel, by decide +kernel, by decide +kernel⟩, by decide, by decide +kernel, by decide, by decide +kernel⟩
  rcases List.mem_cons.1 h with rfl | h
  · refine ⟨rfl, ⟨rfl, trivial⟩, rfl, fun _ args => ?_⟩
    dsimp only
    split <;> exact ⟨rfl, trivial⟩
  · obtain rfl := List.mem_singleton.1 h
    exact ⟨⟨rfl, trivial⟩, rfl, trivial⟩

end Stylish.Props
