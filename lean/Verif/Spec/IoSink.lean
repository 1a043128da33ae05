import Verif.Lemmas.IoLoop
/-
Specification vocabulary: sinks that obey the contract of `std::io::Write`.
-/

namespace Stylish.Spec

/-- What a scripted sink does when it is called. -/
inductive Answer where
  | accept (n : Nat)   -- accept up to `n` bytes
  | interrupt
  | fail (code : Nat)
  | panic
  deriving DecidableEq, Repr

/-- A sink that follows a script, and accepts everything once the script is over. -/
structure ScriptSink where
  script : List Answer
  got : Bytes
  deriving DecidableEq, Repr

/-- The error of a failing call. -/
def osError (code : Nat) : IoError := ⟨.Os code, "os error"⟩

/-- The error of an interrupted call. -/
def interrupted : IoError := ⟨.Interrupted, "interrupted"⟩

instance : StdIoWrite ScriptSink where
  write buf t :=
    match t.script with
    | [] => (.ok buf.length, ⟨[], t.got ++ buf⟩)
    | .accept n :: rest => (.ok (min n buf.length), ⟨rest, t.got ++ buf.take n⟩)
    | .interrupt :: rest => (.err interrupted, ⟨rest, t.got⟩)
    | .fail c :: rest => (.err (osError c), ⟨rest, t.got⟩)
    | .panic :: rest => (.panic, ⟨rest, t.got⟩)
  flush t := (.ok (), t)

/-- The scripted sink obeys the contract, whatever the script. -/
def scriptSink : IoSink ScriptSink :=
  have contract : WriteContract (StdIoWrite.write (T := ScriptSink)) id ScriptSink.got := by
    constructor
    · intro buf w w' n h
      simp only [StdIoWrite.write] at h
      split at h <;> simp only [Prod.mk.injEq, Res.ok.injEq, reduceCtorEq, false_and] at h
      · obtain ⟨rfl, rfl⟩ := h; simp
      · obtain ⟨rfl, rfl⟩ := h
        refine ⟨Nat.min_le_right _ _, ?_⟩
        simp [List.take_eq_take_min]
    · intro buf w w' e h
      simp only [StdIoWrite.write] at h
      split at h <;> simp only [Prod.mk.injEq, reduceCtorEq, false_and] at h
      · rw [← h.2]
      · rw [← h.2]
    · intro buf w w' r h hr
      simp only [StdIoWrite.write] at h
      split at h <;> simp only [Prod.mk.injEq] at h <;> obtain ⟨rfl, rfl⟩ := h <;> simp at hr
      exact ⟨[], by simp, by simp⟩
  { delivered := ScriptSink.got, contract, all := .default contract }

/-- A sink with a schedule of partial writes and interruptions that never fails: each entry is either
`none`, an interruption, or `some n`, accepting up to `n + 1` bytes. -/
structure ScheduleSink where
  schedule : List (Option Nat)
  got : Bytes
  deriving DecidableEq, Repr

instance : StdIoWrite ScheduleSink where
  write buf t :=
    match t.schedule with
    | [] => (.ok buf.length, ⟨[], t.got ++ buf⟩)
    | some n :: rest => (.ok (min (n + 1) buf.length), ⟨rest, t.got ++ buf.take (n + 1)⟩)
    | none :: rest => (.err interrupted, ⟨rest, t.got⟩)
  flush t := (.ok (), t)

/-- The scheduled sink obeys the contract. -/
def scheduleSink : IoSink ScheduleSink :=
  have contract : WriteContract (StdIoWrite.write (T := ScheduleSink)) id ScheduleSink.got := by
    constructor
    · intro buf w w' n h
      simp only [StdIoWrite.write] at h
      split at h <;> simp only [Prod.mk.injEq, Res.ok.injEq, reduceCtorEq, false_and] at h
      · obtain ⟨rfl, rfl⟩ := h; simp
      · obtain ⟨rfl, rfl⟩ := h
        refine ⟨Nat.min_le_right _ _, ?_⟩
        simp [List.take_eq_take_min]
    · intro buf w w' e h
      simp only [StdIoWrite.write] at h
      split at h <;> simp only [Prod.mk.injEq, reduceCtorEq, false_and] at h
      rw [← h.2]
    · intro buf w w' r h hr
      simp only [StdIoWrite.write] at h
      split at h <;> simp only [Prod.mk.injEq] at h <;> obtain ⟨rfl, rfl⟩ := h <;> simp at hr
  { delivered := ScheduleSink.got, contract, all := .default contract }

theorem scheduleSink_reliable : ReliableStream ScheduleSink := by
  refine .default scheduleSink rfl ?_
  intro buf w hb
  have hlen : 0 < buf.length := List.length_pos_iff.2 hb
  simp only [StdIoWrite.write]
  split
  · exact Or.inl ⟨buf.length - 1, by simp; omega⟩
  · rename_i n rest _
    exact Or.inl ⟨min (n + 1) buf.length - 1, by simp; omega⟩
  · exact Or.inr (Or.inl ⟨interrupted, rfl, rfl⟩)

theorem scheduleSink_keepsGoing : KeepsGoing ScheduleSink := by
  refine .default scheduleSink rfl scheduleSink_reliable.write ?_
  intro buf w
  obtain ⟨schedule, got⟩ := w
  refine ⟨by simp only [StdIoWrite.write]; split <;> simp, schedule.length, ?_⟩
  induction schedule generalizing got with
  | nil => intro e h; simp [StdIoWrite.write] at h
  | cons x rest ih =>
    intro e h _
    cases x with
    | none => exact ih got
    | some n => simp [StdIoWrite.write] at h

end Stylish.Spec
