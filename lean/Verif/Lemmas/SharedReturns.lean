import Verif.Lemmas.SharedAlone
import Verif.Props.Io
/-
A thread that gets enough turns returns.
-/

namespace Stylish

open Spec

variable {whole : Bool} {T : Type}

/-- With `n` turns the action returns `Ok`, and it needs no more than `n`. -/
def Brisk {V E A : Type} (inn : V → Turns whole T) (n : Nat) (x : Act V E A) : Prop :=
  ∀ v, n ≤ (inn v).coming.length → (inn v).asked = none →
    ∃ a, (x v).1 = .ok a ∧ (inn (x v).2).asked = none ∧ (inn v).coming.length ≤ (inn (x v).2).coming.length + n

namespace Brisk
variable {V V' E E' A B : Type} {inn : V → Turns whole T}

theorem mono {n m : Nat} (h : n ≤ m) {x : Act V E A} (hx : Brisk inn n x) : Brisk inn m x := by
  intro v hv ha
  obtain ⟨a, h1, h2, h3⟩ := hx v (by omega) ha
  exact ⟨a, h1, h2, by omega⟩

theorem bind {n m : Nat} {x : Act V E A} (hx : Brisk inn n x) {f : A → Act V E B} (hf : ∀ a, Brisk inn m (f a)) :
    Brisk inn (n + m) (x >>= f) := by
  intro v hv ha
  obtain ⟨a, h1, h2, h3⟩ := hx v (by omega) ha
  obtain ⟨b, g1, g2, g3⟩ := hf a (x v).2 (by omega) h2
  have e : (x >>= f) v = f a (x v).2 := by
    rw [Act.bind_apply]
    rcases hxv : x v with ⟨r, v'⟩
    rw [hxv] at h1
    obtain rfl : r = .ok a := h1
    rfl
  rw [e]
  exact ⟨b, g1, g2, by omega⟩

theorem quiet (x : Act V E A) (h : ∀ v, ∃ a, (x v).1 = .ok a) (hin : ∀ v, inn (x v).2 = inn v) : Brisk inn 0 x := by
  intro v _ ha
  obtain ⟨a, h⟩ := h v
  exact ⟨a, h, by rw [hin]; exact ha, by rw [hin]; exact Nat.le_refl _⟩

theorem ret (a : A) : Brisk inn 0 (fun v => ((.ok a : Res E A), v)) := quiet _ (fun _ => ⟨a, rfl⟩) (fun _ => rfl)

/-- The same action in a state that holds the first one. -/
theorem lift {n : Nat} {x : Act V E A} (hx : Brisk inn n x) (get : V' → V) {y : Act V' E' B}
    {inn' : V' → Turns whole T} (hget : ∀ v, inn (get v) = inn' v)
    (hout : ∀ v a, (x (get v)).1 = .ok a → ∃ b, (y v).1 = .ok b ∧ inn' (y v).2 = inn (x (get v)).2) :
    Brisk inn' n y := by
  intro v hv ha
  rw [← hget] at hv ha
  obtain ⟨a, h1, h2, h3⟩ := hx (get v) hv ha
  obtain ⟨b, g1, g2⟩ := hout v a h1
  rw [g2, ← hget]
  exact ⟨b, g1, h2, h3⟩

end Brisk

/-- The stream takes something of whatever it is offered, and all of it with `write_all`, at once. -/
structure Prompt (whole : Bool) (fuel : Nat) (T : Type) [StdIoWrite T] : Prop where
  write : ∀ b (t : T), b ≠ [] → ∃ n, (StdIoWrite.write b t).1 = .ok (n + 1) ∧ n + 1 ≤ b.length
  all : whole = true → ∀ b (t : T), b.length ≤ fuel → (StdIoWrite.writeAll fuel b t).1 = .ok ()
  flush : ∀ t : T, (StdIoWrite.flush t).1 = .ok ()

variable [StdIoWrite T]

omit [StdIoWrite T] in
/-- `write` in a loop. -/
theorem loop_brisk {V : Type} {inn : V → Turns whole T} {write : Bytes → Style → Act V IoError Nat} (st : Style)
    (c : Nat) (hw : ∀ b, b ≠ [] → ∀ v, c ≤ (inn v).coming.length → (inn v).asked = none →
      ∃ n, (write b st v).1 = .ok (n + 1) ∧ n + 1 ≤ b.length ∧ (inn (write b st v).2).asked = none ∧
        (inn v).coming.length ≤ (inn (write b st v).2).coming.length + c)
    (fuel : Nat) : ∀ b : Bytes, b.length ≤ fuel → Brisk inn (b.length * c) (defaultWriteAll write fuel b st) := by
  induction fuel with
  | zero =>
    intro b hb
    obtain rfl : b = [] := List.length_eq_zero_iff.1 (by omega)
    exact (Brisk.ret ()).mono (by simp)
  | succ fuel ih =>
    intro b hb v hv ha
    cases b with
    | nil => exact ⟨(), rfl, ha, by simp [defaultWriteAll]⟩
    | cons x b =>
      generalize hb' : x :: b = buf at *
      have hne : buf ≠ [] := by rw [← hb']; simp
      have hpos : 1 ≤ buf.length := List.length_pos_iff.2 hne
      have hcl : c ≤ buf.length * c := Nat.le_mul_of_pos_left c hpos
      obtain ⟨n, h1, h2, h3, h4⟩ := hw buf hne v (by omega) ha
      have hsub : (buf.drop (n + 1)).length * c + c ≤ buf.length * c := by
        rw [List.length_drop, ← Nat.succ_mul]
        exact Nat.mul_le_mul_right c (by omega)
      obtain ⟨a, g1, g2, g3⟩ := ih (buf.drop (n + 1)) (by simp; omega) (write buf st v).2 (by omega) h3
      have e : defaultWriteAll write (fuel + 1) buf st v =
          defaultWriteAll write fuel (buf.drop (n + 1)) st (write buf st v).2 := by
        rw [defaultWriteAll]
        simp only [List.isEmpty_iff, hne, if_false]
        rcases hwv : write buf st v with ⟨r, v'⟩
        rw [hwv] at h1
        obtain rfl : r = .ok (n + 1) := h1
        simp only [h2, if_true]
      rw [e]
      exact ⟨a, g1, g2, by omega⟩

theorem Spec.Turns.write_prompt {fuel : Nat} (hT : Prompt whole fuel T) (b : Bytes) (hb : b ≠ []) (s : Turns whole T)
    (hs : 1 ≤ s.coming.length) (ha : s.asked = none) :
    ∃ n, (StdIoWrite.write b s).1 = .ok (n + 1) ∧ n + 1 ≤ b.length ∧ (StdIoWrite.write b s).2.asked = none ∧
      s.coming.length ≤ (StdIoWrite.write b s).2.coming.length + 1 := by
  obtain ⟨coming, past, asked⟩ := s
  obtain rfl : asked = none := ha
  cases coming with
  | nil => simp at hs
  | cons t rest =>
    obtain ⟨n, h1, h2⟩ := hT.write b t hb
    exact ⟨n, h1, h2, rfl, Nat.le_refl _⟩

theorem Spec.Turns.writeAll_brisk {fuel : Nat} (hT : Prompt whole fuel T) (b : Bytes) (hb : b.length ≤ fuel) :
    Brisk (whole := whole) (T := T) id (b.length + 1) (StdIoWrite.writeAll fuel b) := by
  cases whole with
  | true =>
    rintro ⟨coming, past, asked⟩ hs (rfl : asked = none)
    cases coming with
    | nil => simp at hs
    | cons t rest =>
      refine ⟨(), hT.all rfl b t hb, rfl, ?_⟩
      simp [StdIoWrite.writeAll, Turns.call]
  | false =>
    have h := loop_brisk (inn := id) (write := fun b _ => StdIoWrite.write (T := Turns false T) b) Style.default 1
      (fun b hb v hv ha => Turns.write_prompt hT b hb v hv ha) fuel b hb
    have e : (StdIoWrite.writeAll fuel b : Act (Turns false T) IoError Unit) =
        defaultWriteAll (fun b _ => StdIoWrite.write (T := Turns false T) b) fuel b Style.default :=
      funext fun s => stdWriteAll_eq _ fuel b Style.default s
    rw [e]
    exact h.mono (by omega)

/-! ### The writers -/

omit [StdIoWrite T] in
theorem trap_brisk {V : Type} [IoWrite V] {inn : V → Turns whole T} {n : Nat} (s : Str) (st : Style)
    (h : Brisk inn n (IoWrite.writeAll (W := V) (utf8 s) st)) :
    Brisk (fun w : ErrorTrap V => inn w.inner) n (Write.writeStr (W := ErrorTrap V) s st) := by
  refine h.lift (fun w => w.inner) (fun _ => rfl) ?_
  intro w a ha
  simp only [Write.writeStr]
  rcases hw : IoWrite.writeAll (utf8 s) st w.inner with ⟨r, w'⟩
  rw [hw] at ha
  obtain rfl : r = .ok a := ha
  exact ⟨(), rfl, rfl⟩

omit [StdIoWrite T] in
theorem chunks_brisk {V : Type} [Write V] {inn : V → Turns whole T} (cost : Chunk → Nat) (chs : List Chunk)
    (h : ∀ ch ∈ chs, Brisk inn (cost ch) (Write.writeStr (W := V) ch.1 ch.2)) :
    Brisk inn (chs.map cost).sum (writeChunks (W := V) chs) := by
  induction chs with
  | nil => exact .ret ()
  | cons ch chs ih =>
    exact .bind (h ch (by simp)) (fun _ => ih fun c hc => h c (by simp [hc]))

omit [StdIoWrite T] in
theorem writeFmt_brisk {V : Type} [IoWrite V] {inn : V → Turns whole T} (args : Arguments) (hp : Propagates args.f)
    (hd : (denote args).2 = .ok ()) (cost : Chunk → Nat)
    (h : ∀ ch ∈ (denote args).1, Brisk inn (cost ch) (IoWrite.writeAll (W := V) (utf8 ch.1) ch.2)) :
    Brisk inn ((denote args).1.map cost).sum (IoWrite.writeFmt (W := V) args) := by
  refine (chunks_brisk cost (denote args).1 fun ch hch => trap_brisk ch.1 ch.2 (h ch hch)).lift
    (fun w : V => ErrorTrap.new w) (fun _ => rfl) ?_
  intro v a ha
  unfold IoWrite.writeFmt
  rw [Write.writeFmt_propagates args hp, hd]
  rcases hw : writeChunks (denote args).1 (ErrorTrap.new v) with ⟨r, w⟩
  rw [hw] at ha
  obtain rfl : r = .ok a := ha
  exact ⟨(), rfl, rfl⟩

section
variable {fuel : Nat} (hT : Prompt whole fuel T)
include hT

theorem plain_brisk (args : Arguments) (hp : Propagates args.f) (hd : (denote args).2 = .ok ())
    (hf : ∀ ch ∈ (denote args).1, (utf8 ch.1).length ≤ fuel) :
    Brisk (whole := whole) (T := T) IoPlain.inner ((denote args).1.map fun ch => (utf8 ch.1).length + 1).sum
      (IoWrite.writeFmt (W := IoPlain fuel (Turns whole T)) args) := by
  refine writeFmt_brisk args hp hd _ fun ch hch => ?_
  refine (Turns.writeAll_brisk hT (utf8 ch.1) (hf ch hch)).lift (fun w => w.inner) (fun _ => rfl) ?_
  intro v a ha
  exact ⟨a, ha, rfl⟩

namespace IoAnsi

theorem put_brisk (s : Str) (h8 : (utf8 s).length ≤ 8) (hf : 8 ≤ fuel) :
    Brisk (whole := whole) (T := T) (IoAnsi.inner (fuel := fuel)) 9 (put s) := by
  refine ((Turns.writeAll_brisk hT (utf8 s) (by omega)).mono (by omega)).lift (fun w => w.inner) (fun _ => rfl) ?_
  intro v a ha
  exact ⟨a, ha, rfl⟩

theorem putRest_brisk (hf : 8 ≤ fuel) (l : List Str) (hl : ∀ s ∈ l, (utf8 s).length ≤ 8) :
    Brisk (whole := whole) (T := T) (IoAnsi.inner (fuel := fuel)) (18 * l.length) (putRest l) := by
  induction l with
  | nil => exact .ret ()
  | cons s l ih =>
    refine (Brisk.bind (put_brisk hT (str ";") (by decide) hf) fun _ =>
      Brisk.bind (put_brisk hT s (hl s (by simp)) hf) fun _ => ih fun s hs => hl s (by simp [hs])).mono ?_
    simp; omega

omit hT in
theorem segment_short (diff : StyleDiff) : ∀ s ∈ segments diff, (utf8 s).length ≤ 8 := by
  intro s hs
  simp only [segments, List.mem_filterMap, List.mem_cons, List.not_mem_nil, or_false, id] at hs
  obtain ⟨o, ho, rfl⟩ := hs
  rcases ho with h | h | h
  · rcases hx : diff.foreground with _ | c
    · rw [hx] at h; cases h
    · rw [hx] at h; cases h; cases c <;> decide
  · rcases hx : diff.background with _ | c
    · rw [hx] at h; cases h
    · rw [hx] at h; cases h; cases c <;> decide
  · rcases hx : diff.intensity with _ | c
    · rw [hx] at h; cases h
    · rw [hx] at h; cases h; cases c <;> decide

omit hT in
theorem segments_few (diff : StyleDiff) : (segments diff).length ≤ 3 := by
  exact List.length_filterMap_le _ _

theorem switchStyle_brisk (hf : 8 ≤ fuel) (cur st : Style) :
    Brisk (whole := whole) (T := T) (IoAnsi.inner (fuel := fuel)) 90 (switchStyle cur st) := by
  unfold switchStyle
  split
  · exact (put_brisk hT _ (by decide) hf).mono (by omega)
  · have h1 := segment_short (st.diffFrom cur)
    have h2 := segments_few (st.diffFrom cur)
    generalize segments (st.diffFrom cur) = segs at h1 h2 ⊢
    rcases segs with _ | ⟨s, l⟩
    · exact (Brisk.ret ()).mono (by omega)
    · refine (Brisk.bind (put_brisk hT (str "\x1b[") (by decide) hf) fun _ =>
        Brisk.bind (put_brisk hT s (h1 s (by simp)) hf) fun _ =>
        Brisk.bind (putRest_brisk hT hf l fun s hs => h1 s (by simp [hs])) fun _ =>
        put_brisk hT (str "m") (by decide) hf).mono ?_
      simp at h2
      omega

theorem write_prompt (hf : 8 ≤ fuel) (st : Style) (b : Bytes) (hb : b ≠ []) (w : IoAnsi fuel (Turns whole T))
    (hw : 91 ≤ w.inner.coming.length) (ha : w.inner.asked = none) :
    ∃ n, (write b st w).1 = .ok (n + 1) ∧ n + 1 ≤ b.length ∧ (write b st w).2.inner.asked = none ∧
      w.inner.coming.length ≤ (write b st w).2.inner.coming.length + 91 := by
  obtain ⟨u, h1, h2, h3⟩ := switchStyle_brisk hT hf w.current st w (by omega) ha
  obtain ⟨n, g1, g2, g3, g4⟩ := Turns.write_prompt hT b hb (switchStyle w.current st w).2.inner (by omega) h2
  have e : write b st w = onInner (StdIoWrite.write b) ⟨(switchStyle w.current st w).2.inner, st⟩ := by
    unfold write
    rw [Act.bind_apply]
    simp only [getCurrent]
    rw [Act.bind_apply]
    rcases hs : switchStyle w.current st w with ⟨r, w'⟩
    rw [hs] at h1
    obtain rfl : r = .ok u := h1
    rfl
  rw [e]
  exact ⟨n, g1, g2, g3, by simp only [onInner]; omega⟩

end IoAnsi

theorem ansi_brisk (h8 : 8 ≤ fuel) (args : Arguments) (hp : Propagates args.f) (hd : (denote args).2 = .ok ())
    (hf : ∀ ch ∈ (denote args).1, (utf8 ch.1).length ≤ fuel) :
    Brisk (whole := whole) (T := T) IoAnsi.inner (((denote args).1.map fun ch => (utf8 ch.1).length * 91).sum + 9)
      (IoWrite.writeFmt (W := IoAnsi fuel (Turns whole T)) args >>= fun _ => IoAnsi.finish) := by
  refine .bind (writeFmt_brisk args hp hd _ fun ch hch => ?_) fun _ => ?_
  · exact loop_brisk (inn := IoAnsi.inner (fuel := fuel)) ch.2 91
      (fun b hb w hw ha => IoAnsi.write_prompt hT h8 ch.2 b hb w hw ha) fuel _ (hf ch hch)
  · have h : Brisk (whole := whole) (T := T) (IoAnsi.inner (fuel := fuel)) (0 + 9) IoAnsi.finish := by
      refine .bind (.quiet _ (fun w => ⟨w.current, rfl⟩) (fun _ => rfl)) fun cur => ?_
      by_cases h : cur ≠ Style.default
      · rw [if_pos h]; exact IoAnsi.put_brisk hT _ (by decide) h8
      · rw [if_neg h]; exact (Brisk.ret ()).mono (by omega)
    exact h.mono (by omega)

end

/-- Given enough turns, in whatever states of the stream, a thread has done a job. -/
theorem Spec.Job.brisk (job : Job) (hp : job.Propagates) (hd : ∃ s, job.format = .ok s) :
    ∃ enough n, ∀ fuel, enough ≤ fuel → Prompt whole fuel T →
      Brisk (whole := whole) (T := T) id n (job.run fuel) := by
  have hmax : ∀ chs : List Chunk, ∃ m, ∀ ch ∈ chs, (utf8 ch.1).length ≤ m := by
    intro chs
    induction chs with
    | nil => exact ⟨0, by simp⟩
    | cons c chs ih =>
      obtain ⟨m, hm⟩ := ih
      refine ⟨max m (utf8 c.1).length, fun ch hch => ?_⟩
      rcases List.mem_cons.1 hch with rfl | h
      · omega
      · have := hm ch h; omega
  obtain ⟨s, hd⟩ := hd
  cases job with
  | ansi args =>
    obtain ⟨m, hm⟩ := hmax (denote args).1
    have hd := (Props.denote_of_ansiFormat args s hd).1
    refine ⟨max 8 m, ((denote args).1.map fun ch => (utf8 ch.1).length * 91).sum + 9, fun fuel hf hT => ?_⟩
    refine (ansi_brisk (fuel := fuel) hT (by omega) args hp hd (fun ch hch => by have := hm ch hch; omega)).lift
      (fun s => IoAnsi.new s) (fun _ => rfl) ?_
    intro v a ha
    exact ⟨a, ha, rfl⟩
  | plain args =>
    obtain ⟨m, hm⟩ := hmax (denote args).1
    have hd := (Props.denote_of_plainFormat args s hd).1
    refine ⟨m, ((denote args).1.map fun ch => (utf8 ch.1).length + 1).sum, fun fuel hf hT => ?_⟩
    refine (plain_brisk (fuel := fuel) hT args hp hd (fun ch hch => by have := hm ch hch; omega)).lift
      (fun s => IoPlain.new s) (fun _ => rfl) ?_
    intro v a ha
    exact ⟨a, ha, rfl⟩
  | flush =>
    refine ⟨0, 1, fun fuel _ hT => ?_⟩
    rintro ⟨coming, past, asked⟩ hs (rfl : asked = none)
    cases coming with
    | nil => simp at hs
    | cons t rest => exact ⟨(), hT.flush t, rfl, by simp [Job.run, StdIoWrite.flush, Turns.call]⟩

/-- Given enough turns, in whatever states of the stream, a thread has done all its jobs. -/
theorem Spec.Job.enough (jobs : List Job) (hp : ∀ job ∈ jobs, job.Propagates)
    (hd : ∀ job ∈ jobs, ∃ s, job.format = .ok s) :
    ∃ enough n, ∀ fuel, enough ≤ fuel → Prompt whole fuel T →
      Brisk (whole := whole) (T := T) id n (Job.runAll fuel jobs) := by
  induction jobs with
  | nil => exact ⟨0, 0, fun _ _ _ => .ret ()⟩
  | cons job jobs ih =>
    obtain ⟨e1, n1, h1⟩ := job.brisk (whole := whole) (T := T) (hp job (by simp)) (hd job (by simp))
    obtain ⟨e2, n2, h2⟩ := ih (fun j hj => hp j (by simp [hj])) (fun j hj => hd j (by simp [hj]))
    exact ⟨max e1 e2, n1 + n2, fun fuel hf hT => .bind (h1 fuel (by omega) hT) fun _ => h2 fuel (by omega) hT⟩

namespace Spec.World
variable {fuel : Nat} {jobs : Nat → List Job}

/-- A thread has returned, or it has used all of its turns. -/
theorem turns_used (i : Nat) (schedule : List Nat) : ∀ (w : World T),
    (thread whole fuel jobs i (run whole fuel jobs schedule w)).2.asked = none ∨
    ((run whole fuel jobs schedule w).had i).length = (w.had i).length + schedule.count i := by
  induction schedule with
  | nil => intro w; right; simp [run]
  | cons j schedule ih =>
    intro w
    have e : run whole fuel jobs (j :: schedule) w = run whole fuel jobs schedule (turn whole fuel jobs w j) := rfl
    rw [e]
    rcases h : (thread whole fuel jobs j w).2.asked with _ | c
    · have et : turn whole fuel jobs w j = w := by unfold turn; rw [h]
      rw [et]
      by_cases hj : j = i
      · subst hj
        left
        have key : ∀ (sch : List Nat) (u : World T), (thread whole fuel jobs j u).2.asked = none →
            (thread whole fuel jobs j (run whole fuel jobs sch u)).2.asked = none := by
          intro sch
          induction sch with
          | nil => intro u hu; exact hu
          | cons l sch ih =>
            intro u hu
            refine ih (turn whole fuel jobs u l) ?_
            by_cases hl : l = j
            · subst hl
              have : turn whole fuel jobs u l = u := by unfold turn; rw [hu]
              rw [this]; exact hu
            · have : (turn whole fuel jobs u l).had j = u.had j := by
                unfold turn
                split
                · rfl
                · have hl' : ¬ j = l := fun e => hl e.symm
                  simp [hl']
              unfold thread at hu ⊢
              rw [this]; exact hu
        exact key schedule w h
      · rcases ih w with h1 | h1
        · exact Or.inl h1
        · right
          rw [h1, List.count_cons_of_ne hj]
    · rcases ih (turn whole fuel jobs w j) with h1 | h1
      · exact Or.inl h1
      · right
        rw [h1]
        unfold turn
        rw [h]
        by_cases hj : j = i
        · subst hj; simp; omega
        · have hj' : ¬ i = j := fun e => hj e.symm
          simp [hj', List.count_cons_of_ne hj]

end Spec.World

end Stylish
