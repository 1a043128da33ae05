import Verif.Spec.Text
/-
Lemmas about running Display programs.
-/

namespace Stylish

open Spec

variable {W V : Type}

section Basics
variable [Write W]

theorem Formatter.writeStr_eq (s : Str) (f : Formatter W) :
    Formatter.writeStr s f =
      ((Write.writeStr s f.style f.write).1, { f with write := (Write.writeStr s f.style f.write).2 }) := by
  unfold Formatter.writeStr
  rw [Act.bind_apply]
  simp only [Formatter.onWrite]
  rcases h : Write.writeStr s f.style f.write with ⟨r, w⟩
  cases r <;> rfl

/-- Running a program changes nothing of the formatter but its writer. -/
theorem Disp.run_frame (d : Disp) (f : Formatter W) :
    (d.run f).2.style = f.style ∧ (d.run f).2.format = f.format := by
  induction d generalizing f with
  | done r => exact ⟨rfl, rfl⟩
  | panic => exact ⟨rfl, rfl⟩
  | writeStr s k ih =>
    simp only [Disp.run, Formatter.writeStr_eq]
    rcases h : Write.writeStr s f.style f.write with ⟨r, w⟩
    cases r <;> simp only [resume] <;> first | exact ih _ _ | exact ⟨rfl, rfl⟩ | exact ⟨trivial, trivial⟩
  | within r body k ihb ihk =>
    simp only [Disp.run]
    rcases h : body.run (f.with r) with ⟨res, sub⟩
    cases res <;> simp only [resume] <;> first | exact ihk _ _ | exact ⟨rfl, rfl⟩ | exact ⟨trivial, trivial⟩
  | withinArgs a r body k ihb ihk =>
    simp only [Disp.run]
    rcases h : body.run (f.withArgs a r) with ⟨res, sub⟩
    cases res <;> simp only [resume] <;> first | exact ihk _ _ | exact ⟨rfl, rfl⟩ | exact ⟨trivial, trivial⟩
  | inspect k ih => exact ih _ _ _

omit [Write W] in
theorem Formatter.eta (f : Formatter W) (st : Style) (a : FormatterArgs) (h1 : f.style = st)
    (h2 : f.format = a) : f = ⟨st, a, f.write⟩ := by
  cases f; subst h1; subst h2; rfl

theorem Disp.run_eta (d : Disp) (f : Formatter W) :
    d.run f = ((d.run f).1, ⟨f.style, f.format, (d.run f).2.write⟩) := by
  have h := d.run_frame f
  rw [← Formatter.eta _ _ _ h.1 h.2]

end Basics

/-- Simulation: a relation between the states of two writers preserved by every write (with the same
result) is preserved by every program. -/
theorem Disp.run_sim [Write W] [Write V] (R : W → V → Prop)
    (step : ∀ s style w v, R w v →
      (Write.writeStr s style w).1 = (Write.writeStr s style v).1 ∧
      R (Write.writeStr s style w).2 (Write.writeStr s style v).2)
    (d : Disp) (st : Style) (a : FormatterArgs) (w : W) (v : V) (h : R w v) :
    (d.run ⟨st, a, w⟩).1 = (d.run ⟨st, a, v⟩).1 ∧
    R (d.run ⟨st, a, w⟩).2.write (d.run ⟨st, a, v⟩).2.write := by
  induction d generalizing st a w v with
  | done r => exact ⟨rfl, h⟩
  | panic => exact ⟨rfl, h⟩
  | writeStr s k ih =>
    obtain ⟨h1, h2⟩ := step s st w v h
    simp only [Disp.run, Formatter.writeStr_eq]
    rcases hw : Write.writeStr s st w with ⟨r, w'⟩
    rcases hv : Write.writeStr s st v with ⟨r', v'⟩
    rw [hw, hv] at h1 h2
    simp only at h1 h2
    subst h1
    cases r <;> simp only [resume] <;> first | exact ih _ _ _ _ _ h2 | first | exact ⟨rfl, h2⟩ | exact ⟨trivial, h2⟩
  | within r body k ihb ihk =>
    obtain ⟨h1, h2⟩ := ihb (st.with r) a w v h
    simp only [Disp.run, Formatter.with, Formatter.endBorrow]
    rcases hw : body.run ⟨st.with r, a, w⟩ with ⟨res, f⟩
    rcases hv : body.run ⟨st.with r, a, v⟩ with ⟨res', f'⟩
    rw [hw, hv] at h1 h2
    simp only at h1 h2
    subst h1
    cases res <;> simp only [resume] <;> first | exact ihk _ _ _ _ _ h2 | first | exact ⟨rfl, h2⟩ | exact ⟨trivial, h2⟩
  | withinArgs a' r body k ihb ihk =>
    obtain ⟨h1, h2⟩ := ihb (st.with r) a' w v h
    simp only [Disp.run, Formatter.withArgs, Formatter.endBorrow]
    rcases hw : body.run ⟨st.with r, a', w⟩ with ⟨res, f⟩
    rcases hv : body.run ⟨st.with r, a', v⟩ with ⟨res', f'⟩
    rw [hw, hv] at h1 h2
    simp only at h1 h2
    subst h1
    cases res <;> simp only [resume] <;> first | exact ihk _ _ _ _ _ h2 | first | exact ⟨rfl, h2⟩ | exact ⟨trivial, h2⟩
  | inspect k ih => exact ih _ _ _ _ _ _ h

/-- A property of the writer state preserved by every write, successful or not, holds after every
program. -/
theorem Disp.run_invariant [Write W] (I : W → Prop)
    (step : ∀ s style w, I w → I (Write.writeStr s style w).2)
    (d : Disp) (st : Style) (a : FormatterArgs) (w : W) (h : I w) :
    I (d.run ⟨st, a, w⟩).2.write :=
  (Disp.run_sim (W := W) (V := W) (fun w v => w = v ∧ I w)
    (fun s style w v ⟨e, i⟩ => by subst e; exact ⟨rfl, rfl, step s style w i⟩) d st a w w ⟨rfl, h⟩).2.2

section Chunks
variable [Write W]

@[simp] theorem writeChunks_nil (w : W) : writeChunks [] w = (.ok (), w) := rfl

theorem writeChunks_cons (ch : Chunk) (rest : List Chunk) (w : W) :
    writeChunks (ch :: rest) w = match Write.writeStr ch.1 ch.2 w with
      | (.ok (), w') => writeChunks rest w'
      | (r, w') => (r, w') := by
  rw [writeChunks, Act.bind_apply]
  rcases Write.writeStr ch.1 ch.2 w with ⟨r, w'⟩
  cases r <;> rfl

theorem writeChunks_append (xs ys : List Chunk) (w : W) :
    writeChunks (xs ++ ys) w = match writeChunks xs w with
      | (.ok (), w') => writeChunks ys w'
      | (r, w') => (r, w') := by
  induction xs generalizing w with
  | nil => rfl
  | cons x xs ih =>
    simp only [List.cons_append, writeChunks_cons]
    rcases Write.writeStr x.1 x.2 w with ⟨r, w'⟩
    cases r <;> simp [ih]

/-- Continue after making all writes. -/
def afterChunks (r : Res FmtError Unit × W) (out : Res FmtError Unit) : Res FmtError Unit × W :=
  match r with
  | (.ok (), w) => (out, w)
  | (r, w) => (r, w)

/-- A program that propagates errors makes exactly its writes, up to the first failure. -/
theorem Disp.run_propagates (d : Disp) (hd : Propagates d) (st : Style) (a : FormatterArgs) (w : W) :
    ((d.run ⟨st, a, w⟩).1, (d.run ⟨st, a, w⟩).2.write) =
      afterChunks (writeChunks (writes d st a).1 w) (writes d st a).2 := by
  induction d generalizing st a w with
  | done r => rfl
  | panic => rfl
  | writeStr s k ih =>
    simp only [Disp.run, Formatter.writeStr_eq, writes, writeChunks_cons]
    rcases hw : Write.writeStr s st w with ⟨r, w'⟩
    cases r with
    | ok u => simpa [resume] using ih .ok hd.2 st a w'
    | err e => simp [resume, hd.1, Disp.run, FmtResult.toRes, afterChunks]
    | panic => rfl
    | diverge => rfl
  | within r body k ihb ihk =>
    have hb := ihb hd.1 (st.with r) a w
    simp only [Disp.run, Formatter.with, Formatter.endBorrow]
    rcases hw : body.run ⟨st.with r, a, w⟩ with ⟨res, f⟩
    rw [hw] at hb
    simp only [writes]
    rcases hi : writes body (st.with r) a with ⟨log, out⟩
    rw [hi] at hb
    rcases hc : writeChunks log w with ⟨rc, wc⟩
    simp only [hc] at hb
    cases rc with
    | ok u =>
      simp only [afterChunks] at hb
      obtain ⟨rfl, h2⟩ := Prod.mk.inj hb
      cases res with
      | ok u =>
        simp only [resume, writeChunks_append, hc, h2]
        exact ihk .ok hd.2.2 st a wc
      | err e => 
        simp only [resume, writeChunks_append, hc, h2, hd.2.1, writes, writeChunks_nil]
        rfl
      | panic => simp [resume, hc, h2, afterChunks]
      | diverge => simp [resume, hc, h2, afterChunks]
    | err e =>
      obtain ⟨rfl, h2⟩ := Prod.mk.inj hb
      simp only [resume, hd.2.1]
      cases out <;> simp [writeChunks_append, hc, h2, afterChunks, Disp.run, FmtResult.toRes]
    | panic =>
      obtain ⟨rfl, h2⟩ := Prod.mk.inj hb
      simp only [resume]
      cases out <;> simp [writeChunks_append, hc, h2, afterChunks]
    | diverge =>
      obtain ⟨rfl, h2⟩ := Prod.mk.inj hb
      simp only [resume]
      cases out <;> simp [writeChunks_append, hc, h2, afterChunks]
  | withinArgs a' r body k ihb ihk =>
    have hb := ihb hd.1 (st.with r) a' w
    simp only [Disp.run, Formatter.withArgs, Formatter.endBorrow]
    rcases hw : body.run ⟨st.with r, a', w⟩ with ⟨res, f⟩
    rw [hw] at hb
    simp only [writes]
    rcases hi : writes body (st.with r) a' with ⟨log, out⟩
    rw [hi] at hb
    rcases hc : writeChunks log w with ⟨rc, wc⟩
    simp only [hc] at hb
    cases rc with
    | ok u =>
      simp only [afterChunks] at hb
      obtain ⟨rfl, h2⟩ := Prod.mk.inj hb
      cases res with
      | ok u =>
        simp only [resume, writeChunks_append, hc, h2]
        exact ihk .ok hd.2.2 st a wc
      | err e => 
        simp only [resume, writeChunks_append, hc, h2, hd.2.1, writes, writeChunks_nil]
        rfl
      | panic => simp [resume, hc, h2, afterChunks]
      | diverge => simp [resume, hc, h2, afterChunks]
    | err e =>
      obtain ⟨rfl, h2⟩ := Prod.mk.inj hb
      simp only [resume, hd.2.1]
      cases out <;> simp [writeChunks_append, hc, h2, afterChunks, Disp.run, FmtResult.toRes]
    | panic =>
      obtain ⟨rfl, h2⟩ := Prod.mk.inj hb
      simp only [resume]
      cases out <;> simp [writeChunks_append, hc, h2, afterChunks]
    | diverge =>
      obtain ⟨rfl, h2⟩ := Prod.mk.inj hb
      simp only [resume]
      cases out <;> simp [writeChunks_append, hc, h2, afterChunks]
  | inspect k ih => exact ih _ _ (hd _ _) _ _ _

theorem Spec.Accepting.writeStr (h : Accepting W) (s : Str) (st : Style) (w : W) :
    Write.writeStr s st w = (.ok (), (Write.writeStr s st w).2) := by
  have := h s st w
  rcases hw : Write.writeStr s st w with ⟨r, w'⟩
  rw [hw] at this
  simp_all

theorem Spec.Accepting.writeChunks (h : Accepting W) (chs : List Chunk) (w : W) :
    writeChunks chs w = (.ok (), (Spec.writeChunks chs w).2) := by
  induction chs generalizing w with
  | nil => rfl
  | cons ch chs ih =>
    rw [writeChunks_cons, h.writeStr]
    exact ih _

/-- On a writer that accepts everything, every program makes exactly its writes. -/
theorem Disp.run_accepting (hW : Accepting W) (d : Disp) (st : Style) (a : FormatterArgs) (w : W) :
    d.run ⟨st, a, w⟩ =
      ((writes d st a).2, ⟨st, a, (writeChunks (writes d st a).1 w).2⟩) := by
  induction d generalizing st a w with
  | done r => rfl
  | panic => rfl
  | writeStr s k ih =>
    simp only [Disp.run, Formatter.writeStr_eq, writes, writeChunks_cons]
    rw [hW.writeStr]
    exact ih _ _ _ _
  | within r body k ihb ihk =>
    simp only [Disp.run, Formatter.with, Formatter.endBorrow, ihb, writes]
    rcases hi : writes body (st.with r) a with ⟨log, out⟩
    cases out <;> simp only [resume, writeChunks_append]
    · rw [hW.writeChunks]; exact ihk _ _ _ _
    · rw [hW.writeChunks]; exact ihk _ _ _ _
  | withinArgs a' r body k ihb ihk =>
    simp only [Disp.run, Formatter.withArgs, Formatter.endBorrow, ihb, writes]
    rcases hi : writes body (st.with r) a' with ⟨log, out⟩
    cases out <;> simp only [resume, writeChunks_append]
    · rw [hW.writeChunks]; exact ihk _ _ _ _
    · rw [hW.writeChunks]; exact ihk _ _ _ _
  | inspect k ih => exact ih _ _ _ _ _

end Chunks

end Stylish
