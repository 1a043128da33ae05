import Verif.Spec.Sink
/-
Specification vocabulary: streams into a buffer of fixed size.
-/

namespace Stylish.Spec

/-- A stream with room for `cap` bytes in all: it takes a string that fits and fails otherwise, taking some part
of it from the start, or nothing. -/
structure FixedBuffer (T : Type) [FmtWrite T] (cap : Nat) extends FmtSink T where
  fits : ∀ (s : Str) (t : T), strLen (delivered t) + strLen s ≤ cap → (FmtWrite.writeStr s t).1 = .ok ()
  full : ∀ (s : Str) (t : T), cap < strLen (delivered t) + strLen s → (FmtWrite.writeStr s t).1 = .err ()

/-- The given output belongs behind what the buffer held: it is there if it fits; otherwise there is an error, and
there is the start of it. -/
def InBuffer {T : Type} [FmtWrite T] {cap : Nat} (b : FixedBuffer T cap) (t : T) (out : Str) (r : Res FmtError Unit)
    (t' : T) : Prop :=
  (strLen (b.delivered t) + strLen out ≤ cap → r = .ok () ∧ b.delivered t' = b.delivered t ++ out) ∧
  (cap < strLen (b.delivered t) + strLen out → r = .err () ∧ ∃ p, p <+: out ∧ b.delivered t' = b.delivered t ++ p)

/-- `ArrayString<CAP>` of the crate `arrayvec`: takes the whole of a string or nothing. -/
structure WholeBuffer (cap : Nat) where
  chars : Str
  deriving DecidableEq

instance {cap : Nat} : FmtWrite (WholeBuffer cap) := ⟨fun s t =>
  if strLen t.chars + strLen s ≤ cap then (.ok (), ⟨t.chars ++ s⟩) else (.err (), t)⟩

/-- The longest start of the text that has at most the given number of bytes. -/
def startOf : Nat → Str → Str
  | _, [] => []
  | n, c :: s => if c.utf8Size ≤ n then c :: startOf (n - c.utf8Size) s else []

/-- A buffer that is filled as far as possible. -/
structure FillBuffer (cap : Nat) where
  chars : Str
  deriving DecidableEq

instance {cap : Nat} : FmtWrite (FillBuffer cap) := ⟨fun s t =>
  if strLen t.chars + strLen s ≤ cap then (.ok (), ⟨t.chars ++ s⟩)
  else (.err (), ⟨t.chars ++ startOf (cap - strLen t.chars) s⟩)⟩

theorem startOf_prefix (n : Nat) (s : Str) : startOf n s <+: s := by
  induction s generalizing n with
  | nil => exact List.prefix_rfl
  | cons c s ih =>
    unfold startOf
    split
    · exact List.cons_prefix_cons.2 ⟨rfl, ih _⟩
    · exact List.nil_prefix

/-- Both are such streams. -/
def wholeBuffer (cap : Nat) : FixedBuffer (WholeBuffer cap) cap where
  delivered := WholeBuffer.chars
  ok := by
    intro s t t' h
    simp only [FmtWrite.writeStr] at h
    split at h
    · rw [← (Prod.mk.inj h).2]
    · exact absurd (Prod.mk.inj h).1 (by simp)
  notOk := by
    intro s t t' r h hr
    simp only [FmtWrite.writeStr] at h
    split at h
    · exact absurd (Prod.mk.inj h).1.symm hr
    · exact ⟨[], List.nil_prefix, by rw [← (Prod.mk.inj h).2]; simp⟩
  fits := by
    intro s t h
    simp only [FmtWrite.writeStr]
    rw [if_pos h]
  full := by
    intro s t h
    simp only [FmtWrite.writeStr]
    rw [if_neg (by omega)]

/-- Both are such streams. -/
def fillBuffer (cap : Nat) : FixedBuffer (FillBuffer cap) cap where
  delivered := FillBuffer.chars
  ok := by
    intro s t t' h
    simp only [FmtWrite.writeStr] at h
    split at h
    · rw [← (Prod.mk.inj h).2]
    · exact absurd (Prod.mk.inj h).1 (by simp)
  notOk := by
    intro s t t' r h hr
    simp only [FmtWrite.writeStr] at h
    split at h
    · exact absurd (Prod.mk.inj h).1.symm hr
    · exact ⟨_, startOf_prefix _ _, by rw [← (Prod.mk.inj h).2]⟩
  fits := by
    intro s t h
    simp only [FmtWrite.writeStr]
    rw [if_pos h]
  full := by
    intro s t h
    simp only [FmtWrite.writeStr]
    rw [if_neg (by omega)]

end Stylish.Spec
