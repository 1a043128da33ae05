import Verif.Model.Sink
import Verif.Model.Io
/-
Specification vocabulary: laws of sinks.
-/

namespace Stylish.Spec

/-- What a `core::fmt::Write` sink must do for "what was delivered to it" to make sense: a successful
write delivers exactly the string, any other outcome delivers some prefix of it. -/
structure FmtSink (T : Type) [FmtWrite T] where
  delivered : T → Str
  ok : ∀ (s : Str) (t t' : T), FmtWrite.writeStr s t = (.ok (), t') →
    delivered t' = delivered t ++ s
  notOk : ∀ (s : Str) (t t' : T) (r : Res FmtError Unit), FmtWrite.writeStr s t = (r, t') →
    r ≠ .ok () → ∃ p, p <+: s ∧ delivered t' = delivered t ++ p

/-- A sink that accepts every string. -/
def AcceptingSink (T : Type) [FmtWrite T] : Prop :=
  ∀ (s : Str) (t : T), (FmtWrite.writeStr s t).1 = .ok ()

/-- `String` obeys the laws. -/
def stringSink : FmtSink StdString where
  delivered := StdString.chars
  ok := by
    rintro s ⟨t⟩ ⟨t'⟩ h
    have := (Prod.mk.inj h).2
    simp at this
    exact this.symm
  notOk := by
    rintro s ⟨t⟩ ⟨t'⟩ r h hr
    exact absurd (Prod.mk.inj h).1.symm hr

theorem stringSink_accepting : AcceptingSink StdString := fun _ _ => rfl

/-- A sink with room for `room` more characters, which takes what fits and then fails. -/
structure LimitedSink where
  chars : Str
  room : Nat
  deriving DecidableEq

instance : FmtWrite LimitedSink := ⟨fun s t =>
  if s.length ≤ t.room then (.ok (), ⟨t.chars ++ s, t.room - s.length⟩)
  else (.err (), ⟨t.chars ++ s.take t.room, 0⟩)⟩

/-- The limited sink obeys the laws. -/
def limitedSink : FmtSink LimitedSink where
  delivered := LimitedSink.chars
  ok := by
    intro s t t' h
    simp only [FmtWrite.writeStr] at h
    split at h
    · rw [← (Prod.mk.inj h).2]
    · exact absurd (Prod.mk.inj h).1 (by simp)
  notOk := by
    intro s t t' r h hr
    simp only [FmtWrite.writeStr] at h
    split at h
    · exact absurd (Prod.mk.inj h).1.symm hr
    · exact ⟨s.take t.room, List.take_prefix _ _, by rw [← (Prod.mk.inj h).2]⟩

end Stylish.Spec
