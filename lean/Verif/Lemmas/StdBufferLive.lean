import Verif.Lemmas.StdBuffer
/-
Buffered streams over devices that never fail.
-/

namespace Stylish

open Spec

variable {cap fuel : Nat} {T : Type} [StdIoWrite T]

namespace BufWriter
variable {k : IoSink T}

theorem flushBuf_reliable (k : IoSink T) (hn : NonFailing (StdIoWrite.write (T := T))) (n : Nat)
    (s : BufWriter cap fuel T) : (flushBuf n s).1 = .ok () ∨ (flushBuf n s).1 = .diverge := by
  induction n generalizing s with
  | zero => unfold flushBuf; split <;> simp
  | succ n ih =>
    unfold flushBuf
    by_cases hb : s.buf.isEmpty = true
    · simp [hb]
    · rw [if_neg hb]
      have hne : s.buf ≠ [] := by simpa using hb
      rcases hw : StdIoWrite.write s.buf s.inner with ⟨x, v⟩
      rcases hn s.buf s.inner hne with ⟨m, h⟩ | ⟨e, h, hi⟩ | h
      · simp only [hw] at h; subst h
        have := (k.contract.ok _ _ _ _ hw).1
        simp only [this, if_true]
        exact ih _
      · simp only [hw] at h; subst h
        simp only [hi, if_true]
        exact ih _
      · simp only [hw] at h; subst h
        exact Or.inr rfl

theorem makeRoom_reliable (k : IoSink T) (hn : NonFailing (StdIoWrite.write (T := T))) (b : Bytes)
    (s : BufWriter cap fuel T) : (makeRoom b s).1 = .ok () ∨ (makeRoom b s).1 = .diverge := by
  unfold makeRoom
  split
  · exact flushBuf_reliable k hn _ _
  · simp

/-- A buffered stream over one that never fails never fails. -/
theorem reliable (hq : QuietPanics k) (h : ReliableStream T) : ReliableStream (BufWriter cap fuel T) := by
  have hroom : ∀ (b : Bytes) (s s' : BufWriter cap fuel T) u, makeRoom b s = (.ok u, s') → b.length < cap →
      s'.buf.length + b.length ≤ cap := fun b s s' u hm => ((makeRoom_spec hq _ _ _ _ hm).2.1 rfl).2
  constructor
  · intro b s hb
    have hlen : b.length = b.length - 1 + 1 := by
      have := List.length_pos_iff.2 hb; omega
    show (∃ n, (write b s).1 = _) ∨ (∃ e, (write b s).1 = _ ∧ _) ∨ (write b s).1 = _
    unfold write
    split
    · rename_i hlt
      rw [push_ok _ _ (by unfold spare at hlt; omega)]
      exact Or.inl ⟨b.length - 1, by simp only; rw [← hlen]⟩
    · rw [Act.bind_apply]
      have hr := makeRoom_reliable k h.write b s
      rcases hm : makeRoom b s with ⟨x, s1⟩
      rw [hm] at hr
      rcases hr with hr | hr
      · simp only at hr; subst hr
        simp only
        split
        · simp only [onInner]
          have := h.write b s1.inner hb
          rcases hx : StdIoWrite.write b s1.inner with ⟨y, t⟩
          rw [hx] at this
          exact this
        · rename_i hc
          rw [push_ok _ _ (hroom b s s1 () hm (by omega))]
          exact Or.inl ⟨b.length - 1, by simp only; rw [← hlen]⟩
      · simp only at hr; subst hr
        exact Or.inr (Or.inr rfl)
  · intro n b s
    show (writeAll n b s).1 = _ ∨ (writeAll n b s).1 = _
    unfold writeAll
    split
    · rename_i hlt
      rw [Act.bind_apply, push_ok _ _ (by unfold spare at hlt; omega)]
      exact Or.inl rfl
    · rw [Act.bind_apply]
      have hr := makeRoom_reliable k h.write b s
      rcases hm : makeRoom b s with ⟨x, s1⟩
      rw [hm] at hr
      rcases hr with hr | hr
      · simp only at hr; subst hr
        simp only
        split
        · simp only [onInner]
          have := h.writeAll n b s1.inner
          rcases hx : StdIoWrite.writeAll n b s1.inner with ⟨y, t⟩
          rw [hx] at this
          exact this
        · rename_i hc
          rw [Act.bind_apply, push_ok _ _ (hroom b s s1 () hm (by omega))]
          exact Or.inl rfl
      · simp only at hr; subst hr
        exact Or.inr rfl

/-- `flush_buf` returns if it may try often enough. -/
theorem flushBuf_returns (k : IoSink T) (p : Nat) (hs : Steady p T) (n : Nat) (s : BufWriter cap fuel T)
    (hn : s.buf.length * (p + 1) ≤ n) : (flushBuf n s).1 ≠ .diverge := by
  have key : ∀ (n q : Nat) (s : BufWriter cap fuel T), q ≤ p → Patient StdIoWrite.write s.buf q s.inner →
      (s.buf ≠ [] → (s.buf.length - 1) * (p + 1) + q + 1 ≤ n) → (flushBuf n s).1 ≠ .diverge := by
    intro n
    induction n with
    | zero =>
      intro q s _ _ hle
      unfold flushBuf
      split
      · simp
      · rename_i hb
        have := hle (by simpa using hb)
        omega
    | succ n ih =>
      intro q s hqp hp hle
      unfold flushBuf
      by_cases hb : s.buf.isEmpty = true
      · simp [hb]
      · rw [if_neg hb]
        have hne : s.buf ≠ [] := by simpa using hb
        have hle := hle hne
        rcases hw : StdIoWrite.write s.buf s.inner with ⟨x, v⟩
        rcases x with (_ | m) | e | _ | _
        · simp
        · simp only
          have hm := (k.contract.ok _ _ _ _ hw).1
          simp only [hm, if_true]
          refine ih p _ (Nat.le_refl _) (hs _ _).2 fun hne' => ?_
          simp only [List.length_drop]
          have h1 : s.buf.length - (m + 1) - 1 + 1 ≤ s.buf.length - 1 := by
            have : 0 < (s.buf.drop (m + 1)).length := List.length_pos_iff.2 hne'
            rw [List.length_drop] at this
            omega
          have h2 := Nat.mul_le_mul_right (p + 1) h1
          rw [Nat.add_mul, Nat.one_mul] at h2
          omega
        · simp only
          by_cases hi : e.kind = .Interrupted
          · simp only [hi, if_true]
            cases q with
            | zero => exact absurd hi (hp e (by rw [hw]))
            | succ q =>
              have := hp e (by rw [hw]) hi
              rw [hw] at this
              exact ih q { s with inner := v } (by omega) this fun _ => by
                show (s.buf.length - 1) * (p + 1) + q + 1 ≤ n
                omega
          · simp [hi]
        · simp
        · exact absurd (by rw [hw]) (hs s.buf s.inner).1
  refine key n p s (Nat.le_refl _) (hs _ _).2 fun hne => ?_
  have : 0 < s.buf.length := List.length_pos_iff.2 hne
  have e : s.buf.length * (p + 1) = (s.buf.length - 1) * (p + 1) + (p + 1) := by
    rw [← Nat.succ_mul]; congr 1; omega
  omega

theorem flushBuf_fuel (k : IoSink T) (p : Nat) (hs : Steady p T) (hf : cap * (p + 1) ≤ fuel)
    (s : BufWriter cap fuel T) : (flushBuf fuel s).1 ≠ .diverge :=
  flushBuf_returns k p hs fuel s (Nat.le_trans (Nat.mul_le_mul_right _ s.fits) hf)

/-- If an `Interrupted` of `write'` comes from one of the device, offered the same again, the one is as patient as
the other. -/
theorem patient_of {S : Type} {write' : Bytes → Act S IoError Nat} (b c : Bytes) (E : S → Prop) (dev : S → T)
    (h : ∀ s e s', write' b s = (.err e, s') → e.kind = .Interrupted →
      ∃ t, StdIoWrite.write c t = (.err e, dev s') ∧ E s' ∧ (E s → t = dev s)) (p : Nat)
    (hs : Steady p T) (s : S) : Patient write' b p s := by
  have key : ∀ q s, E s → Patient StdIoWrite.write c q (dev s) → Patient write' b q s := by
    intro q
    induction q with
    | zero =>
      intro s hE hp e he hi
      obtain ⟨t, h1, -, h3⟩ := h s e _ (Prod.ext he rfl) hi
      rw [h3 hE] at h1
      exact hp e (by rw [h1]) hi
    | succ q ih =>
      intro s hE hp e he hi
      obtain ⟨t, h1, h2, h3⟩ := h s e _ (Prod.ext he rfl) hi
      rw [h3 hE] at h1
      refine ih _ h2 ?_
      have := hp e (by rw [h1]) hi
      rwa [h1] at this
  cases p with
  | zero =>
    intro e he hi
    obtain ⟨t, h1, -, -⟩ := h s e _ (Prod.ext he rfl) hi
    exact (hs c t).2 e (by rw [h1]) hi
  | succ p =>
    intro e he hi
    obtain ⟨t, h1, h2, -⟩ := h s e _ (Prod.ext he rfl) hi
    refine key p _ h2 ?_
    have := (hs c t).2 e (by rw [h1]) hi
    rwa [h1] at this

/-- An `Interrupted` of `write` comes from the device, and leaves an empty buffer. -/
theorem write_interrupted (hq : QuietPanics k) (b : Bytes) (s : BufWriter cap fuel T) (e : IoError)
    (s' : BufWriter cap fuel T) (h : write b s = (.err e, s')) (hi : e.kind = .Interrupted) :
    ∃ t, StdIoWrite.write b t = (.err e, s'.inner) ∧ s'.buf = [] ∧ (s.buf = [] → t = s.inner) := by
  unfold write at h
  split at h
  · rename_i hlt
    rw [push_ok _ _ (by unfold spare at hlt; omega)] at h
    simp at h
  · rw [Act.bind_apply] at h
    rcases hm : makeRoom b s with ⟨x, s1⟩
    rw [hm] at h
    obtain ⟨-, h2, h3⟩ := makeRoom_spec hq _ _ _ _ hm
    cases x with
    | ok u =>
      obtain ⟨h2, h2'⟩ := h2 rfl
      simp only at h
      split at h
      · rename_i hc
        simp only [onInner] at h
        rcases hw : StdIoWrite.write b s1.inner with ⟨y, t⟩
        rw [hw] at h
        obtain ⟨rfl, rfl⟩ := Prod.mk.inj h
        refine ⟨s1.inner, hw, h2 hc, fun hs => ?_⟩
        unfold makeRoom at hm
        split at hm
        · have : flushBuf fuel s = (.ok (), s) := by
            cases fuel <;> simp [flushBuf, hs]
          rw [this] at hm
          rw [← (Prod.mk.inj hm).2]
        · rw [← (Prod.mk.inj hm).2]
      · rename_i hc
        rw [push_ok _ _ (h2' (by omega))] at h
        simp at h
    | err e' =>
      obtain ⟨h4, rfl⟩ := Prod.mk.inj h
      cases h4
      exact absurd hi (h3 e rfl).1
    | panic => simp at h
    | diverge => simp at h

theorem makeRoom_returns (k : IoSink T) (p : Nat) (hs : Steady p T) (hf : cap * (p + 1) ≤ fuel) (b : Bytes)
    (s : BufWriter cap fuel T) : (makeRoom b s).1 ≠ .diverge := by
  unfold makeRoom
  split
  · exact flushBuf_fuel k p hs hf s
  · simp

theorem write_returns (k : IoSink T) (p : Nat) (hs : Steady p T) (hf : cap * (p + 1) ≤ fuel) (b : Bytes)
    (s : BufWriter cap fuel T) : (write b s).1 ≠ .diverge := by
  unfold write
  split
  · unfold push; split <;> simp
  · rw [Act.bind_apply]
    have := makeRoom_returns k p hs hf b s
    rcases hm : makeRoom b s with ⟨x, s1⟩
    rw [hm] at this
    cases x with
    | ok u =>
      simp only
      split
      · simp only [onInner]
        have := (hs b s1.inner).1
        rcases hx : StdIoWrite.write b s1.inner with ⟨y, t⟩
        rw [hx] at this
        exact this
      · unfold push; split <;> simp
    | err e => simp
    | panic => simp
    | diverge => exact absurd rfl this

/-- The action, given more and more fuel, comes to one result. -/
def Comes {S E A : Type} (x : Nat → Act S E A) (s : S) : Prop :=
  ∃ enough r s', r ≠ .diverge ∧ ∀ n, enough ≤ n → x n s = (r, s')

theorem Comes.const {S E A : Type} {x : Act S E A} {s : S} (h : (x s).1 ≠ .diverge) : Comes (fun _ => x) s :=
  ⟨0, _, _, h, fun _ _ => rfl⟩

theorem Comes.bind {S E A B : Type} {x : Nat → Act S E A} {g : Nat → A → Act S E B} {s : S} (hx : Comes x s)
    (hg : ∀ a s, Comes (fun n => g n a) s) : Comes (fun n => x n >>= g n) s := by
  obtain ⟨f, r, s', hr, h⟩ := hx
  cases r with
  | ok a =>
    obtain ⟨f2, r2, s2, hr2, h2⟩ := hg a s'
    refine ⟨max f f2, r2, s2, hr2, fun n hn => ?_⟩
    show (x n >>= g n) s = _
    rw [Act.bind_apply, h n (by omega)]
    exact h2 n (by omega)
  | err e => exact ⟨f, .err e, s', by simp, fun n hn => by show (x n >>= g n) s = _; rw [Act.bind_apply, h n hn]⟩
  | panic => exact ⟨f, .panic, s', by simp, fun n hn => by show (x n >>= g n) s = _; rw [Act.bind_apply, h n hn]⟩
  | diverge => exact absurd rfl hr

omit [StdIoWrite T] in
theorem Comes.onInner {x : Nat → Act T IoError Unit} {s : BufWriter cap fuel T} (h : Comes x s.inner) :
    Comes (fun n => BufWriter.onInner (x n)) s := by
  obtain ⟨f, r, s', hr, h⟩ := h
  exact ⟨f, r, { s with inner := s' }, hr, fun n hn => by simp only [BufWriter.onInner, h n hn]⟩

theorem writeAll_comes (k : IoSink T) (p : Nat) (hs : Steady p T) (hf : cap * (p + 1) ≤ fuel) (hg : KeepsGoing T)
    (b : Bytes) (s : BufWriter cap fuel T) : Comes (fun n => writeAll n b) s := by
  have hpush : ∀ s : BufWriter cap fuel T, ((push b >>= fun _ => pure ()) s).1 ≠ .diverge := by
    intro s
    rw [Act.bind_apply]
    by_cases h : s.buf.length + b.length ≤ cap
    · rw [push_ok b s h]; simp
    · simp [push, h]
  by_cases hlt : b.length < s.spare
  · refine ⟨0, _, ((push b >>= fun _ => pure ()) s).2, hpush s, fun n _ => ?_⟩
    show writeAll n b s = _
    unfold writeAll
    rw [if_pos hlt]
  · have : Comes (fun n => makeRoom b >>= fun _ => if cap ≤ b.length then
        BufWriter.onInner (StdIoWrite.writeAll n b) else push b >>= fun _ => pure ()) s := by
      refine Comes.bind (Comes.const (makeRoom_returns k p hs hf b s)) fun _ s => ?_
      split
      · exact Comes.onInner (hg.writeAll b s.inner)
      · exact Comes.const (hpush s)
    obtain ⟨f, r, s', hr, h⟩ := this
    refine ⟨f, r, s', hr, fun n hn => ?_⟩
    show writeAll n b s = _
    unfold writeAll
    rw [if_neg hlt]
    exact h n hn

/-- A buffered stream over a steady one keeps going. -/
theorem keepsGoing (hq : QuietPanics k) (p : Nat) (hs : Steady p T) (hf : cap * (p + 1) ≤ fuel)
    (hg : KeepsGoing T) : KeepsGoing (BufWriter cap fuel T) where
  write b s := ⟨write_returns k p hs hf b s,
    p, patient_of b b (fun s => s.buf = []) BufWriter.inner (write_interrupted hq b) p hs s⟩
  writeAll b s := writeAll_comes k p hs hf hg b s

end BufWriter

namespace LineWriter
variable {keep : Bytes → Nat → Nat} {k : IoSink T}

omit [StdIoWrite T] in
theorem onBuffer_fst {E A : Type} (x : Act (BufWriter cap fuel T) E A) (s : LineWriter cap fuel keep T) :
    (onBuffer x s).1 = (x s.buffer).1 := rfl

theorem flushIf_reliable (k : IoSink T) (hn : NonFailing (StdIoWrite.write (T := T)))
    (s : LineWriter cap fuel keep T) :
    (flushIfCompletedLine s).1 = .ok () ∨ (flushIfCompletedLine s).1 = .diverge := by
  unfold flushIfCompletedLine
  split
  · exact BufWriter.flushBuf_reliable k hn _ _
  · simp

/-- A line-buffered stream over one that never fails never fails. -/
theorem reliable (hq : QuietPanics k) (h : ReliableStream T) : ReliableStream (LineWriter cap fuel keep T) := by
  have hbuf := BufWriter.reliable (cap := cap) (fuel := fuel) hq h
  constructor
  · intro b s hb
    show (∃ n, (write b s).1 = _) ∨ (∃ e, (write b s).1 = _ ∧ _) ∨ (write b s).1 = _
    unfold write
    rcases hi : memrchr 10 b with _ | i
    · simp only
      rw [Act.bind_apply]
      have hr := flushIf_reliable k h.write s
      rcases hm : flushIfCompletedLine s with ⟨x, s1⟩
      rw [hm] at hr
      rcases hr with hr | hr
      · simp only at hr; subst hr
        exact hbuf.write b s1.buffer hb
      · simp only at hr; subst hr
        exact Or.inr (Or.inr rfl)
    · simp only
      rw [Act.bind_apply]
      have hr := BufWriter.flushBuf_reliable k h.write fuel s.buffer
      rw [← onBuffer_fst (keep := keep)] at hr
      rcases hm : onBuffer (BufWriter.flushBuf fuel) s with ⟨x, s1⟩
      rw [hm] at hr
      rcases hr with hr | hr
      · simp only at hr; subst hr
        simp only [Act.bind_apply, onBuffer, BufWriter.onInner]
        have hne : b.take (i + 1) ≠ [] := by
          intro he
          rcases List.take_eq_nil_iff.1 he with h0 | h0
          · omega
          · exact hb h0
        have hw := h.write (b.take (i + 1)) s1.buffer.inner hne
        rcases hx : StdIoWrite.write (b.take (i + 1)) s1.buffer.inner with ⟨y, t⟩
        rw [hx] at hw
        rcases hw with ⟨m, hw⟩ | ⟨e, hw, hi⟩ | hw
        · simp only at hw; subst hw
          have hle := (k.contract.ok _ _ _ _ hx).1
          rw [List.length_take] at hle
          have hle : m + 1 ≤ b.length := by omega
          simp only [Nat.add_eq_zero_iff, Nat.one_ne_zero, and_false, if_false, hle, if_true]
          simp only [Act.bind_apply, onBuffer, writeToBuf_ok]
          exact Or.inl ⟨_, by
            show Res.ok _ = Res.ok _
            rw [Nat.add_right_comm]⟩
        · simp only at hw; subst hw
          exact Or.inr (Or.inl ⟨e, rfl, hi⟩)
        · simp only at hw; subst hw
          exact Or.inr (Or.inr rfl)
      · simp only at hr; subst hr
        exact Or.inr (Or.inr rfl)
  · intro n b s
    show (writeAll n b s).1 = _ ∨ (writeAll n b s).1 = _
    unfold writeAll
    rcases hi : memrchr 10 b with _ | i
    · simp only
      rw [Act.bind_apply]
      have hr := flushIf_reliable k h.write s
      rcases hm : flushIfCompletedLine s with ⟨x, s1⟩
      rw [hm] at hr
      rcases hr with hr | hr
      · simp only at hr; subst hr
        exact hbuf.writeAll n b s1.buffer
      · simp only at hr; subst hr
        exact Or.inr rfl
    · have hl : (putLines n (b.take (i + 1)) s).1 = .ok () ∨ (putLines n (b.take (i + 1)) s).1 = .diverge := by
        unfold putLines
        split
        · exact h.writeAll n (b.take (i + 1)) s.buffer.inner
        · rw [Act.bind_apply]
          have hr := hbuf.writeAll n (b.take (i + 1)) s.buffer
          rcases hm : onBuffer (BufWriter.writeAll n (b.take (i + 1))) s with ⟨x, s1⟩
          have e : StdIoWrite.writeAll n (b.take (i + 1)) s.buffer = (x, s1.buffer) := onBuffer_inv hm
          rw [e] at hr
          rcases hr with hr | hr
          · simp only at hr; subst hr
            exact BufWriter.flushBuf_reliable k h.write _ _
          · simp only at hr; subst hr
            exact Or.inr rfl
      show ((putLines n (b.take (i + 1)) >>= fun _ => onBuffer (BufWriter.writeAll n (b.drop (i + 1)))) s).1 = _ ∨
        ((putLines n (b.take (i + 1)) >>= fun _ => onBuffer (BufWriter.writeAll n (b.drop (i + 1)))) s).1 = _
      rw [Act.bind_apply]
      rcases hm : putLines n (b.take (i + 1)) s with ⟨x, s1⟩
      rw [hm] at hl
      rcases hl with hr | hr
      · simp only at hr; subst hr
        exact hbuf.writeAll n (b.drop (i + 1)) s1.buffer
      · simp only at hr; subst hr
        exact Or.inr rfl

omit [StdIoWrite T] in
theorem comes_onBuffer {x : Nat → Act (BufWriter cap fuel T) IoError Unit} {s : LineWriter cap fuel keep T}
    (h : BufWriter.Comes x s.buffer) : BufWriter.Comes (fun n => onBuffer (x n)) s := by
  obtain ⟨f, r, s', hr, h⟩ := h
  exact ⟨f, r, ⟨s'⟩, hr, fun n hn => by simp only [onBuffer, h n hn]⟩

section
variable (k) (hq : QuietPanics k) (p : Nat) (hs : Steady p T) (hf : cap * (p + 1) ≤ fuel)
include k hs hf

theorem flushIf_returns (s : LineWriter cap fuel keep T) : (flushIfCompletedLine s).1 ≠ .diverge := by
  unfold flushIfCompletedLine
  split
  · exact BufWriter.flushBuf_fuel k p hs hf _
  · simp

theorem write_returns (b : Bytes) (s : LineWriter cap fuel keep T) : (write b s).1 ≠ .diverge := by
  unfold write
  rcases hi : memrchr 10 b with _ | i
  · simp only
    rw [Act.bind_apply]
    have hr := flushIf_returns (keep := keep) k p hs hf s
    rcases hm : flushIfCompletedLine s with ⟨x, s1⟩
    rw [hm] at hr
    cases x with
    | ok u => exact BufWriter.write_returns k p hs hf b s1.buffer
    | err e => simp
    | panic => simp
    | diverge => exact absurd rfl hr
  · simp only
    rw [Act.bind_apply]
    have hr := BufWriter.flushBuf_fuel k p hs hf s.buffer
    rw [← onBuffer_fst (keep := keep)] at hr
    rcases hm : onBuffer (BufWriter.flushBuf fuel) s with ⟨x, s1⟩
    rw [hm] at hr
    cases x with
    | ok u =>
      simp only [Act.bind_apply, onBuffer, BufWriter.onInner]
      have hw := (hs (b.take (i + 1)) s1.buffer.inner).1
      rcases hx : StdIoWrite.write (b.take (i + 1)) s1.buffer.inner with ⟨y, t⟩
      rw [hx] at hw
      cases y with
      | ok m =>
        simp only
        split
        · simp
        · split
          · simp [Act.bind_apply, onBuffer, writeToBuf_ok]
          · simp [Act.panicked]
      | err e => simp
      | panic => simp
      | diverge => exact absurd rfl hw
    | err e => simp
    | panic => simp
    | diverge => exact absurd rfl hr

omit hs hf in
include hq in
/-- An `Interrupted` of `write` comes from the device, and leaves an empty buffer. -/
theorem write_interrupted (b : Bytes) (s : LineWriter cap fuel keep T) (e : IoError)
    (s' : LineWriter cap fuel keep T) (h : write b s = (.err e, s')) (hi : e.kind = .Interrupted) :
    ∃ t, StdIoWrite.write (match memrchr 10 b with | none => b | some i => b.take (i + 1)) t =
      (.err e, s'.buffer.inner) ∧ s'.buffer.buf = [] ∧ (s.buffer.buf = [] → t = s.buffer.inner) := by
  unfold write at h
  rcases hl : memrchr 10 b with _ | i
  · simp only [hl] at h ⊢
    rw [Act.bind_apply] at h
    rcases hm : flushIfCompletedLine s with ⟨x, s1⟩
    rw [hm] at h
    cases x with
    | ok u =>
      obtain ⟨t, h1, h2, h3⟩ := BufWriter.write_interrupted hq b _ e _ (onBuffer_inv h) hi
      refine ⟨t, h1, h2, fun hb => ?_⟩
      unfold flushIfCompletedLine at hm
      rw [hb] at hm
      simp only [List.getLast?_nil, reduceCtorEq, if_false] at hm
      rw [(Prod.mk.inj hm).2]
      exact h3 (by rw [← (Prod.mk.inj hm).2]; exact hb)
    | err e' =>
      obtain ⟨h4, rfl⟩ := Prod.mk.inj h
      cases h4
      exact absurd hi ((flushIf_spec hq _ _ _ hm).2 e rfl)
    | panic => simp at h
    | diverge => simp at h
  · simp only [hl] at h ⊢
    rw [Act.bind_apply] at h
    rcases hm : onBuffer (BufWriter.flushBuf fuel) s with ⟨x, s1⟩
    rw [hm] at h
    have hfl := BufWriter.flushBuf_spec hq _ _ _ _ (onBuffer_inv hm)
    cases x with
    | ok u =>
      simp only [Act.bind_apply, onBuffer, BufWriter.onInner] at h
      rcases hx : StdIoWrite.write (b.take (i + 1)) s1.buffer.inner with ⟨y, t⟩
      rw [hx] at h
      cases y with
      | ok m =>
        simp only at h
        split at h
        · simp at h
        · split at h
          · simp [Act.bind_apply, onBuffer, writeToBuf_ok] at h
          · simp [Act.panicked] at h
      | err e' =>
        obtain ⟨h4, rfl⟩ := Prod.mk.inj h
        cases h4
        refine ⟨_, hx, hfl.2.1 rfl, fun hb => ?_⟩
        have : BufWriter.flushBuf fuel s.buffer = (.ok (), s.buffer) := by
          cases fuel <;> simp [BufWriter.flushBuf, hb]
        rw [onBuffer_inv hm] at this
        rw [(Prod.mk.inj this).2]
      | panic => simp at h
      | diverge => simp at h
    | err e' =>
      obtain ⟨h4, rfl⟩ := Prod.mk.inj h
      cases h4
      exact absurd hi (hfl.2.2 e rfl)
    | panic => simp at h
    | diverge => simp at h

include hq in
/-- A line-buffered stream over a steady one keeps going. -/
theorem keepsGoing (hg : KeepsGoing T) : KeepsGoing (LineWriter cap fuel keep T) where
  write b s := ⟨write_returns k p hs hf b s,
    p, BufWriter.patient_of b _ (fun s => s.buffer.buf = []) (fun s => s.buffer.inner)
      (write_interrupted k hq b) p hs s⟩
  writeAll b s := by
    show BufWriter.Comes (fun n => writeAll n b) s
    unfold writeAll
    rcases hi : memrchr 10 b with _ | i
    · exact BufWriter.Comes.bind (BufWriter.Comes.const (flushIf_returns k p hs hf s)) fun _ s =>
        comes_onBuffer (BufWriter.writeAll_comes k p hs hf hg b s.buffer)
    · show BufWriter.Comes (fun n => putLines n (b.take (i + 1)) >>= fun _ =>
        onBuffer (BufWriter.writeAll n (b.drop (i + 1)))) s
      refine BufWriter.Comes.bind ?_ fun _ s =>
        comes_onBuffer (BufWriter.writeAll_comes k p hs hf hg _ s.buffer)
      by_cases hb : s.buffer.buf.isEmpty = true
      · obtain ⟨f, r, s', hr, h⟩ := comes_onBuffer (keep := keep) (s := s)
          (BufWriter.Comes.onInner (hg.writeAll (b.take (i + 1)) s.buffer.inner))
        exact ⟨f, r, s', hr, fun n hn => by show putLines n _ s = _; unfold putLines; rw [if_pos hb]; exact h n hn⟩
      · obtain ⟨f, r, s', hr, h⟩ := BufWriter.Comes.bind
          (comes_onBuffer (keep := keep) (BufWriter.writeAll_comes k p hs hf hg (b.take (i + 1)) s.buffer))
          (g := fun _ _ => onBuffer (BufWriter.flushBuf fuel))
          fun _ s => BufWriter.Comes.const (BufWriter.flushBuf_fuel k p hs hf s.buffer)
        exact ⟨f, r, s', hr, fun n hn => by show putLines n _ s = _; unfold putLines; rw [if_neg hb]; exact h n hn⟩

end

end LineWriter

end Stylish
