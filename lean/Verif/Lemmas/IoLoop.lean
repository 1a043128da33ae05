import Verif.Spec.IoContract
/-
The `write_all` loop.
-/

namespace Stylish

open Spec

variable {W α : Type}

/-- std's default `write_all` is the same loop. -/
theorem stdWriteAll_eq {T : Type} (write : Bytes → Act T IoError Nat) (fuel : Nat) (buf : Bytes) (st : Style)
    (t : T) : stdWriteAll write fuel buf t = defaultWriteAll (fun b _ => write b) fuel buf st t := by
  induction fuel generalizing buf t with
  | zero => rfl
  | succ fuel ih =>
    unfold stdWriteAll defaultWriteAll
    split
    · rfl
    · rcases h : write buf t with ⟨r, t'⟩
      rcases r with (_ | n) | e | _ | _ <;> simp only [ih] <;> rfl

section Loop
variable {write : Bytes → Style → Act W IoError Nat}

theorem loop_nil (fuel : Nat) (st : Style) (w : W) :
    defaultWriteAll write fuel [] st w = (.ok (), w) := by cases fuel <;> rfl

/-- Everything there is to know about one run of the loop on a writer obeying the contract. -/
theorem loop_spec (st : Style) {img : UInt8 → α} {del : W → List α}
    (hc : WriteContract (fun b => write b st) img del) (fuel : Nat) (buf : Bytes) (w w' : W)
    (r : Res IoError Unit) (h : defaultWriteAll write fuel buf st w = (r, w')) :
    ∃ p rest, buf = p ++ rest ∧ del w' = del w ++ p.map img ∧
      (r = .ok () → rest = []) ∧
      (∀ e, r = .err e → rest ≠ [] ∧ ∃ v, del v = del w ++ p.map img ∧
        ((write rest st v = (.err e, w') ∧ e.kind ≠ .Interrupted) ∨
         (write rest st v = (.ok 0, w') ∧ e = ⟨.WriteZero, "failed to write whole buffer"⟩))) ∧
      (r = .panic → ∃ rest' v, write rest' st v = (.panic, w')) := by
  induction fuel generalizing buf w with
  | zero =>
    unfold defaultWriteAll at h
    split at h <;> obtain ⟨rfl, rfl⟩ := Prod.mk.inj h
    · rename_i hb
      simp at hb; subst hb
      exact ⟨[], [], by simp⟩
    · exact ⟨[], buf, by simp⟩
  | succ fuel ih =>
    unfold defaultWriteAll at h
    by_cases hb : buf.isEmpty = true
    · rw [if_pos hb] at h
      obtain ⟨rfl, rfl⟩ := Prod.mk.inj h
      simp at hb; subst hb
      exact ⟨[], [], by simp⟩
    · rw [if_neg hb] at h
      have hne : buf ≠ [] := by simpa using hb
      rcases hw : write buf st w with ⟨x, v⟩
      rw [hw] at h
      rcases x with (_ | n) | e | _ | _
      · obtain ⟨rfl, rfl⟩ := Prod.mk.inj h
        obtain ⟨-, hd⟩ := hc.ok buf w v 0 hw
        refine ⟨[], buf, rfl, by simpa using hd, by simp, ?_, by simp⟩
        rintro e ⟨⟩
        exact ⟨hne, w, by simp, Or.inr ⟨hw, rfl⟩⟩
      · obtain ⟨hn, hd⟩ := hc.ok buf w v (n + 1) hw
        simp only [hn, if_true] at h
        obtain ⟨p, rest, h1, h2, h3, h4, h5⟩ := ih _ _ h
        refine ⟨buf.take (n + 1) ++ p, rest, ?_, ?_, h3, ?_, h5⟩
        · rw [List.append_assoc, ← h1, List.take_append_drop]
        · rw [h2, hd]; simp
        · intro e he
          obtain ⟨k1, u, k2, k3⟩ := h4 e he
          exact ⟨k1, u, by rw [k2, hd]; simp, k3⟩
      · have hd := hc.err buf w v e hw
        by_cases hi : e.kind = .Interrupted
        · simp only [hi, if_true] at h
          obtain ⟨p, rest, h1, h2, h3, h4, h5⟩ := ih _ _ h
          exact ⟨p, rest, h1, by rw [h2, hd], h3, by rw [hd] at h4; exact h4, h5⟩
        · simp only [hi, if_false] at h
          obtain ⟨rfl, rfl⟩ := Prod.mk.inj h
          refine ⟨[], buf, rfl, by simpa using hd, by simp, ?_, by simp⟩
          rintro e' ⟨⟩
          exact ⟨hne, w, by simp, Or.inl ⟨hw, hi⟩⟩
      · obtain ⟨rfl, rfl⟩ := Prod.mk.inj h
        obtain ⟨p, ⟨rest, hp⟩, hd⟩ := hc.other buf w v _ hw (Or.inl rfl)
        exact ⟨p, rest, hp.symm, hd, by simp, by simp, fun _ => ⟨buf, w, hw⟩⟩
      · obtain ⟨rfl, rfl⟩ := Prod.mk.inj h
        obtain ⟨p, ⟨rest, hp⟩, hd⟩ := hc.other buf w v _ hw (Or.inr rfl)
        exact ⟨p, rest, hp.symm, hd, by simp, by simp, by simp⟩

/-- On a writer that never fails, the loop returns `Ok` (or did not finish). -/
theorem loop_nonFailing (st : Style) {img : UInt8 → α} {del : W → List α}
    (hc : WriteContract (fun b => write b st) img del) (hn : NonFailing (fun b => write b st))
    (fuel : Nat) (buf : Bytes) (w : W) :
    (defaultWriteAll write fuel buf st w).1 = .ok () ∨
    (defaultWriteAll write fuel buf st w).1 = .diverge := by
  induction fuel generalizing buf w with
  | zero => unfold defaultWriteAll; split <;> simp
  | succ fuel ih =>
    unfold defaultWriteAll
    by_cases hb : buf.isEmpty = true
    · simp [hb]
    · rw [if_neg hb]
      have hne : buf ≠ [] := by simpa using hb
      rcases hw : write buf st w with ⟨x, v⟩
      rcases hn buf w hne with ⟨n, h⟩ | ⟨e, h, hi⟩ | h
      · simp only [hw] at h; subst h
        have := (hc.ok buf w v _ hw).1
        simp only [this, if_true]
        exact ih _ _
      · simp only [hw] at h; subst h
        simp only [hi, if_true]
        exact ih _ _
      · simp only [hw] at h; subst h
        exact Or.inr rfl

/-- Once there is enough fuel, more does not change anything. -/
theorem loop_mono (fuel k : Nat) (buf : Bytes) (st : Style) (w : W)
    (h : (defaultWriteAll write fuel buf st w).1 ≠ .diverge) :
    defaultWriteAll write (fuel + k) buf st w = defaultWriteAll write fuel buf st w := by
  induction fuel generalizing buf w with
  | zero =>
    unfold defaultWriteAll at h
    split at h
    · rename_i hb
      simp at hb; subst hb
      rw [loop_nil, loop_nil]
    · exact absurd rfl h
  | succ fuel ih =>
    rw [Nat.add_right_comm]
    unfold defaultWriteAll at h ⊢
    by_cases hb : buf.isEmpty = true
    · simp [hb]
    · rw [if_neg hb] at h ⊢
      rw [if_neg hb]
      rcases hw : write buf st w with ⟨x, v⟩
      rw [hw] at h
      rcases x with (_ | n) | e | _ | _
      · rfl
      · simp only at h ⊢
        by_cases hn : n + 1 ≤ buf.length
        · simp only [hn, if_true] at h ⊢; exact ih _ _ h
        · simp only [hn, if_false]
      · simp only at h ⊢
        by_cases hi : e.kind = .Interrupted
        · simp only [hi, if_true] at h ⊢; exact ih _ _ h
        · simp only [hi, if_false]
      · rfl
      · rfl

/-- On a writer that never fails and is only finitely often interrupted in a row, the loop finishes. -/
theorem loop_terminates (st : Style) {img : UInt8 → α} {del : W → List α}
    (hc : WriteContract (fun b => write b st) img del) (hn : NonFailing (fun b => write b st))
    (hf : FinitelyInterrupted (fun b => write b st)) (buf : Bytes) (w : W) :
    ∃ fuel, (defaultWriteAll write fuel buf st w).1 = .ok () := by
  induction hlen : buf.length using Nat.strongRecOn generalizing buf w with
  | _ len ih =>
    by_cases hne : buf = []
    · subst hne; exact ⟨0, rfl⟩
    have hb : ¬ buf.isEmpty = true := by simpa using hne
    obtain ⟨-, n, hp⟩ := hf buf w
    induction n generalizing w with
    | zero =>
      rcases hn buf w hne with ⟨m, h⟩ | ⟨e, h, hi⟩ | h
      · rcases hw : write buf st w with ⟨x, v⟩
        simp only [hw] at h; subst h
        have hm := (hc.ok buf w v _ hw).1
        obtain ⟨fuel, hfuel⟩ := ih (buf.drop (m + 1)).length (by simp; omega) (buf.drop (m + 1)) v rfl
        refine ⟨fuel + 1, ?_⟩
        unfold defaultWriteAll
        rw [if_neg hb, hw]
        simp only [hm, if_true]
        exact hfuel
      · exact absurd hi (hp e h)
      · exact absurd h (hf buf w).1
    | succ n ihn =>
      rcases hw : write buf st w with ⟨x, v⟩
      rcases hn buf w hne with ⟨m, h⟩ | ⟨e, h, hi⟩ | h
      · simp only [hw] at h; subst h
        have hm := (hc.ok buf w v _ hw).1
        obtain ⟨fuel, hfuel⟩ := ih (buf.drop (m + 1)).length (by simp; omega) (buf.drop (m + 1)) v rfl
        refine ⟨fuel + 1, ?_⟩
        unfold defaultWriteAll
        rw [if_neg hb, hw]
        simp only [hm, if_true]
        exact hfuel
      · have hp' := hp e h hi
        simp only [hw] at h hp'
        subst h
        obtain ⟨fuel, hfuel⟩ := ihn v hp'
        refine ⟨fuel + 1, ?_⟩
        unfold defaultWriteAll
        rw [if_neg hb, hw]
        simp only [hi, if_true]
        exact hfuel
      · exact absurd h (hf buf w).1

/-- The loop never returns an `Interrupted` error. -/
theorem loop_not_interrupted (fuel : Nat) (buf : Bytes) (st : Style) (w : W) (e : IoError)
    (h : (defaultWriteAll write fuel buf st w).1 = .err e) : e.kind ≠ .Interrupted := by
  induction fuel generalizing buf w with
  | zero => unfold defaultWriteAll at h; split at h <;> simp at h
  | succ fuel ih =>
    unfold defaultWriteAll at h
    by_cases hb : buf.isEmpty = true
    · simp [hb] at h
    · rw [if_neg hb] at h
      rcases hw : write buf st w with ⟨x, v⟩
      rw [hw] at h
      rcases x with (_ | n) | e' | _ | _
      · simp at h; subst h; decide
      · simp only at h
        split at h
        · exact ih _ _ h
        · simp at h
      · simp only at h
        split at h
        · exact ih _ _ h
        · simp at h; subst h; assumption
      · simp at h
      · simp at h

end Loop

/-- std's default `write_all` obeys the contract if `write` does. -/
theorem Spec.WriteAllContract.default {T : Type} {write : Bytes → Act T IoError Nat} {del : T → Bytes}
    (hc : WriteContract write id del) : WriteAllContract (stdWriteAll write) del := by
  have spec := fun fuel buf t t' r (h : stdWriteAll write fuel buf t = (r, t')) =>
    loop_spec (write := fun b _ => write b) Style.default hc fuel buf t t' r
      ((stdWriteAll_eq write fuel buf Style.default t).symm.trans h)
  constructor
  · intro fuel buf t t' h
    obtain ⟨p, rest, h1, h2, h3, -⟩ := spec _ _ _ _ _ h
    rw [h2, h1, h3 rfl, List.map_id, List.append_nil]
  · intro fuel buf t t' e h
    obtain ⟨p, rest, h1, h2, -, h4, -⟩ := spec _ _ _ _ _ h
    refine ⟨?_, p, ⟨rest, h1.symm⟩, fun _ _ hp => ?_, by rw [h2, List.map_id]⟩
    · refine loop_not_interrupted (write := fun b _ => write b) fuel buf Style.default t e ?_
      rw [← stdWriteAll_eq, h]
    · rw [hp] at h1
      exact (h4 e rfl).1 (by simpa using h1)
  · intro fuel buf t t' r h _
    obtain ⟨p, rest, h1, h2, -⟩ := spec _ _ _ _ _ h
    exact ⟨p, ⟨rest, h1.symm⟩, by rw [h2, List.map_id]⟩

theorem std_nonFailing {T : Type} {write : Bytes → Act T IoError Nat} {del : T → Bytes}
    (hc : WriteContract write id del) (hn : NonFailing write) (fuel : Nat) (buf : Bytes) (t : T) :
    (stdWriteAll write fuel buf t).1 = .ok () ∨ (stdWriteAll write fuel buf t).1 = .diverge := by
  rw [stdWriteAll_eq write fuel buf Style.default t]
  exact loop_nonFailing (write := fun b _ => write b) Style.default hc hn fuel buf t

theorem std_mono {T : Type} {write : Bytes → Act T IoError Nat} (fuel k : Nat) (buf : Bytes) (t : T)
    (h : (stdWriteAll write fuel buf t).1 ≠ .diverge) :
    stdWriteAll write (fuel + k) buf t = stdWriteAll write fuel buf t := by
  rw [stdWriteAll_eq write fuel buf Style.default t] at h ⊢
  rw [stdWriteAll_eq write (fuel + k) buf Style.default t]
  exact loop_mono _ _ _ _ _ h

/-- Enough fuel exists, and then the result is the same for all larger amounts. -/
theorem std_settles {T : Type} {write : Bytes → Act T IoError Nat} {del : T → Bytes}
    (hc : WriteContract write id del) (hn : NonFailing write) (hf : FinitelyInterrupted write)
    (buf : Bytes) (t : T) :
    ∃ f t', ∀ fuel, f ≤ fuel → stdWriteAll write fuel buf t = (.ok (), t') := by
  obtain ⟨f, h⟩ := loop_terminates (write := fun b _ => write b) Style.default hc hn hf buf t
  rw [← stdWriteAll_eq] at h
  refine ⟨f, (stdWriteAll write f buf t).2, fun fuel hle => ?_⟩
  obtain ⟨n, rfl⟩ := Nat.exists_eq_add_of_le hle
  rw [std_mono _ _ _ _ (by rw [h]; simp)]
  exact Prod.ext h rfl

theorem Spec.ReliableStream.default {T : Type} [StdIoWrite T] (k : IoSink T)
    (hd : StdIoWrite.writeAll (T := T) = stdWriteAll StdIoWrite.write)
    (hn : NonFailing (StdIoWrite.write (T := T))) : ReliableStream T :=
  ⟨hn, fun fuel buf t => by rw [hd]; exact std_nonFailing k.contract hn fuel buf t⟩

theorem Spec.KeepsGoing.default {T : Type} [StdIoWrite T] (k : IoSink T)
    (hd : StdIoWrite.writeAll (T := T) = stdWriteAll StdIoWrite.write)
    (hn : NonFailing (StdIoWrite.write (T := T))) (hf : FinitelyInterrupted (StdIoWrite.write (T := T))) :
    KeepsGoing T :=
  ⟨hf, fun buf t => by
    obtain ⟨f, t', h⟩ := std_settles k.contract hn hf buf t
    exact ⟨f, .ok (), t', by simp, by rw [hd]; exact h⟩⟩

theorem Spec.KeepsGoing.all {T : Type} [StdIoWrite T] (hf : KeepsGoing T) (hn : ReliableStream T) (buf : Bytes) (t : T) :
    ∃ f t', ∀ fuel, f ≤ fuel → StdIoWrite.writeAll fuel buf t = (.ok (), t') := by
  obtain ⟨f, r, t', hr, h⟩ := hf.writeAll buf t
  have := hn.writeAll f buf t
  rw [h f (Nat.le_refl _)] at this
  cases this.resolve_right hr
  exact ⟨f, t', h⟩

end Stylish
