import Verif.Lemmas.StdBufferLive
import Verif.Lemmas.IoWriters
/-
Line-buffered streams: when no complete line is left in the buffer.
-/

namespace Stylish

open Spec

variable {cap fuel : Nat} {keep : Bytes → Nat → Nat} {T : Type} [StdIoWrite T]

/-- If the action returns `Ok`, it keeps the invariant. -/
def Keeping {S E A : Type} (I : S → Prop) (x : Act S E A) : Prop :=
  ∀ s a s', x s = (.ok a, s') → I s → I s'

theorem Keeping.pure {S E A : Type} {I : S → Prop} (a : A) : Keeping I (pure a : Act S E A) := by
  intro s a s' h hI
  obtain ⟨-, rfl⟩ := Prod.mk.inj h
  exact hI

theorem Keeping.bind {S E A B : Type} {I : S → Prop} {x : Act S E A} {f : A → Act S E B} (hx : Keeping I x)
    (hf : ∀ a, Keeping I (f a)) : Keeping I (x >>= f) := by
  intro s b s' h hI
  rw [Act.bind_apply] at h
  rcases hs : x s with ⟨r, s1⟩
  rw [hs] at h
  cases r with
  | ok a => exact hf a s1 b s' h (hx s a s1 hs hI)
  | err e => simp at h
  | panic => simp at h
  | diverge => simp at h

namespace BufWriter
variable {k : IoSink T} (hq : QuietPanics k)

include hq in
theorem makeRoom_sub (b : Bytes) (s s' : BufWriter cap fuel T) (u : Unit) (h : makeRoom b s = (.ok u, s')) :
    s'.buf = s.buf ∨ s'.buf = [] := by
  unfold makeRoom at h
  split at h
  · exact Or.inr ((flushBuf_spec hq _ _ _ _ h).2.1 rfl)
  · rw [(Prod.mk.inj h).2]; exact Or.inl rfl

include hq in
theorem write_noLine (b : Bytes) (hb : 10 ∉ b) :
    Keeping (fun s : BufWriter cap fuel T => 10 ∉ s.buf) (write b) := by
  have hpush : ∀ (s : BufWriter cap fuel T) (n : Nat) s', push b s = (.ok n, s') → 10 ∉ s.buf → 10 ∉ s'.buf := by
    intro s n s' h hI
    unfold push at h
    split at h
    · obtain ⟨-, rfl⟩ := Prod.mk.inj h
      simp only [List.mem_append, not_or]
      exact ⟨hI, hb⟩
    · simp at h
  intro s n s' h hI
  unfold write at h
  split at h
  · exact hpush _ _ _ h hI
  · rw [Act.bind_apply] at h
    rcases hm : makeRoom b s with ⟨x, s1⟩
    rw [hm] at h
    cases x with
    | ok u =>
      have h1 : 10 ∉ s1.buf := by
        rcases makeRoom_sub hq _ _ _ _ hm with e | e <;> rw [e]
        · exact hI
        · simp
      simp only at h
      split at h
      · simp only [onInner] at h
        obtain ⟨-, rfl⟩ := Prod.mk.inj h
        exact h1
      · exact hpush _ _ _ h h1
    | err e => simp at h
    | panic => simp at h
    | diverge => simp at h

include hq in
theorem writeAll_noLine (n : Nat) (b : Bytes) (hb : 10 ∉ b) :
    Keeping (fun s : BufWriter cap fuel T => 10 ∉ s.buf) (writeAll n b) := by
  have hpush : Keeping (fun s : BufWriter cap fuel T => 10 ∉ s.buf)
      (push b >>= fun _ => (pure () : Act _ IoError Unit)) := by
    refine Keeping.bind ?_ fun _ => Keeping.pure _
    intro s n s' h hI
    unfold push at h
    split at h
    · obtain ⟨-, rfl⟩ := Prod.mk.inj h
      simp only [List.mem_append, not_or]
      exact ⟨hI, hb⟩
    · simp at h
  intro s u s' h hI
  unfold writeAll at h
  split at h
  · exact hpush _ _ _ h hI
  · rw [Act.bind_apply] at h
    rcases hm : makeRoom b s with ⟨x, s1⟩
    rw [hm] at h
    cases x with
    | ok u =>
      have h1 : 10 ∉ s1.buf := by
        rcases makeRoom_sub hq _ _ _ _ hm with e | e <;> rw [e]
        · exact hI
        · simp
      simp only at h
      split at h
      · simp only [onInner] at h
        obtain ⟨-, rfl⟩ := Prod.mk.inj h
        exact h1
      · exact hpush _ _ _ h h1
    | err e => simp at h
    | panic => simp at h
    | diverge => simp at h

end BufWriter

namespace LineWriter
variable {k : IoSink T} (hq : QuietPanics k)

/-- No complete line is left in the buffer. -/
def Clear (s : LineWriter cap fuel keep T) : Prop := 10 ∉ s.buffer.buf

omit [StdIoWrite T] in
theorem clear_onBuffer {A : Type} {x : Act (BufWriter cap fuel T) IoError A}
    (h : Keeping (fun s => 10 ∉ s.buf) x) : Keeping (Clear (keep := keep)) (onBuffer x) :=
  fun s a s' hx hI => h s.buffer a s'.buffer (onBuffer_inv hx) hI

include hq in
theorem flushIf_clear : Keeping (Clear (cap := cap) (fuel := fuel) (keep := keep) (T := T)) flushIfCompletedLine := by
  intro s u s' h hI
  unfold flushIfCompletedLine at h
  split at h
  · have := (BufWriter.flushBuf_spec hq _ _ _ _ (onBuffer_inv h)).2.1 rfl
    unfold Clear
    rw [this]
    simp
  · rw [← (Prod.mk.inj h).2]; exact hI

include hq in
/-- `write_all` leaves no complete line behind. -/
theorem writeAll_clear (n : Nat) (b : Bytes) :
    Keeping (Clear (cap := cap) (fuel := fuel) (keep := keep) (T := T)) (writeAll n b) := by
  unfold writeAll
  rcases hi : memrchr 10 b with _ | i
  · exact Keeping.bind (flushIf_clear hq) fun _ =>
      clear_onBuffer (BufWriter.writeAll_noLine hq n b (memrchr_none _ _ hi))
  · show Keeping Clear (putLines n (b.take (i + 1)) >>= fun _ =>
      onBuffer (BufWriter.writeAll n (b.drop (i + 1))))
    refine Keeping.bind ?_ fun _ => clear_onBuffer (BufWriter.writeAll_noLine hq n _ (memrchr_after _ _ _ hi).2)
    intro s u s' h _
    obtain ⟨p, -, -, h3, -⟩ := putLines_spec hq _ _ _ _ _ h
    unfold Clear
    rw [(h3 rfl).2]
    simp

include hq in
/-- `write` leaves no complete line behind if the device takes all it is offered. -/
theorem write_clear (hw : ∀ b (t t' : T) n, StdIoWrite.write b t = (.ok n, t') → n = b.length) (b : Bytes) :
    Keeping (Clear (cap := cap) (fuel := fuel) (keep := keep) (T := T)) (write b) := by
  unfold write
  rcases hi : memrchr 10 b with _ | i
  · exact Keeping.bind (flushIf_clear hq) fun _ =>
      clear_onBuffer (BufWriter.write_noLine hq b (memrchr_none _ _ hi))
  · intro s m s' h _
    simp only at h
    rw [Act.bind_apply] at h
    rcases hm : onBuffer (BufWriter.flushBuf fuel) s with ⟨x, s1⟩
    rw [hm] at h
    have hfl := (BufWriter.flushBuf_spec hq _ _ _ _ (onBuffer_inv hm)).2.1
    cases x with
    | ok u =>
      simp only [Act.bind_apply, onBuffer, BufWriter.onInner] at h
      rcases hx : StdIoWrite.write (b.take (i + 1)) s1.buffer.inner with ⟨y, t⟩
      rw [hx] at h
      cases y with
      | ok j =>
        have hj := hw _ _ _ _ hx
        have hlt := memrchr_lt _ _ _ hi
        have hj : j = i + 1 := by rw [hj, List.length_take]; omega
        subst hj
        have hle : i + 1 ≤ b.length := by omega
        simp only [Nat.add_eq_zero_iff, Nat.one_ne_zero, and_false, if_false, hle, if_true, Act.bind_apply,
          onBuffer, writeToBuf_ok] at h
        obtain ⟨-, rfl⟩ := Prod.mk.inj h
        unfold Clear
        simp only [hfl rfl, List.nil_append]
        intro hmem
        exact (memrchr_after _ _ _ hi).2 (List.mem_of_mem_take (List.mem_of_mem_take hmem))
      | err e => simp at h
      | panic => simp at h
      | diverge => simp at h
    | err e => simp at h
    | panic => simp at h
    | diverge => simp at h

include hq in
theorem interrupted_clear (b : Bytes) (s s' : LineWriter cap fuel keep T) (e : IoError)
    (h : write b s = (.err e, s')) (hi : e.kind = .Interrupted) : Clear s' := by
  obtain ⟨t, -, h2, -⟩ := write_interrupted k hq b s e s' h hi
  unfold Clear
  rw [h2]
  simp

end LineWriter

/-! ### The writers on top -/

section Writers
variable {k : IoSink T} (hq : QuietPanics k) {n : Nat}

/-- No complete line is left in the buffer of the stream inside. -/
abbrev ansiClear (a : IoAnsi n (LineWriter cap fuel keep T)) : Prop := a.inner.Clear

omit [StdIoWrite T] in
theorem keeping_onInner {A : Type} {x : Act (LineWriter cap fuel keep T) IoError A}
    (h : Keeping LineWriter.Clear x) : Keeping (ansiClear (n := n)) (IoAnsi.onInner x) := by
  intro a v a' hx hI
  simp only [IoAnsi.onInner] at hx
  rcases hy : x a.inner with ⟨r, t⟩
  rw [hy] at hx
  obtain ⟨rfl, rfl⟩ := Prod.mk.inj hx
  exact h _ _ _ hy hI

include hq in
theorem put_clear (s : Str) : Keeping (ansiClear (cap := cap) (fuel := fuel) (keep := keep) (T := T) (n := n))
    (IoAnsi.put s) := keeping_onInner (LineWriter.writeAll_clear hq n (utf8 s))

include hq in
theorem putRest_clear (l : List Str) : Keeping (ansiClear (cap := cap) (fuel := fuel) (keep := keep) (T := T) (n := n))
    (IoAnsi.putRest l) := by
  induction l with
  | nil => exact Keeping.pure _
  | cons x l ih => exact (put_clear hq _).bind fun _ => (put_clear hq _).bind fun _ => ih

include hq in
theorem switchStyle_clear (c s : Style) :
    Keeping (ansiClear (cap := cap) (fuel := fuel) (keep := keep) (T := T) (n := n)) (IoAnsi.switchStyle c s) := by
  unfold IoAnsi.switchStyle
  split
  · exact put_clear hq _
  · cases IoAnsi.segments (s.diffFrom c) with
    | nil => exact Keeping.pure _
    | cons x l =>
      exact (put_clear hq _).bind fun _ => (put_clear hq _).bind fun _ =>
        (putRest_clear hq _).bind fun _ => put_clear hq _

variable (hw : ∀ b (t t' : T) n, StdIoWrite.write b t = (.ok n, t') → n = b.length)

include hq hw in
theorem ansi_write_clear (b : Bytes) (st : Style) (a a' : IoAnsi n (LineWriter cap fuel keep T))
    (r : Res IoError Nat) (h : IoAnsi.write b st a = (r, a'))
    (hr : (∃ m, r = .ok m) ∨ ∃ e, r = .err e ∧ e.kind = .Interrupted) (hI : ansiClear a) : ansiClear a' := by
  have h : (IoAnsi.switchStyle a.current st >>= fun _ => IoAnsi.setCurrent st >>= fun _ =>
    IoAnsi.onInner (StdIoWrite.write b)) a = (r, a') := h
  rw [Act.bind_apply] at h
  rcases hs : IoAnsi.switchStyle a.current st a with ⟨x, a1⟩
  rw [hs] at h
  cases x with
  | ok u =>
    have h1 := switchStyle_clear hq _ _ _ _ _ hs hI
    have h : IoAnsi.onInner (StdIoWrite.write b) { a1 with current := st } = (r, a') := h
    simp only [IoAnsi.onInner] at h
    rcases hx : StdIoWrite.write b a1.inner with ⟨y, t⟩
    rw [hx] at h
    obtain ⟨rfl, rfl⟩ := Prod.mk.inj h
    rcases hr with ⟨m, rfl⟩ | ⟨e, rfl, hi⟩
    · exact LineWriter.write_clear hq hw b _ _ _ hx h1
    · exact LineWriter.interrupted_clear hq b _ _ e hx hi
  | err e =>
    obtain ⟨rfl, rfl⟩ := Prod.mk.inj h
    rcases hr with ⟨m, hr⟩ | ⟨e', hr, hi⟩
    · simp at hr
    · cases hr
      exact absurd hi (IoAnsi.switchStyle_notInterrupted (LineWriter.sink k hq) _ _ a e (by rw [hs]))
  | panic => obtain ⟨rfl, rfl⟩ := Prod.mk.inj h; simp at hr
  | diverge => obtain ⟨rfl, rfl⟩ := Prod.mk.inj h; simp at hr

include hq hw in
theorem ansi_writeAll_clear (m : Nat) (b : Bytes) (st : Style) :
    Keeping (ansiClear (cap := cap) (fuel := fuel) (keep := keep) (T := T) (n := n))
      (defaultWriteAll IoAnsi.write m b st) := by
  induction m generalizing b with
  | zero =>
    intro a u a' h hI
    unfold defaultWriteAll at h
    split at h
    · rw [← (Prod.mk.inj h).2]; exact hI
    · simp at h
  | succ m ih =>
    intro a u a' h hI
    unfold defaultWriteAll at h
    split at h
    · rw [← (Prod.mk.inj h).2]; exact hI
    · rcases hx : IoAnsi.write b st a with ⟨y, a1⟩
      rw [hx] at h
      have hk := ansi_write_clear hq hw b st a a1 y hx
      rcases y with (_ | j) | e | _ | _
      · simp at h
      · simp only at h
        split at h
        · exact ih _ _ _ _ h (hk (Or.inl ⟨_, rfl⟩) hI)
        · simp at h
      · simp only at h
        split at h
        · rename_i hi
          exact ih _ _ _ _ h (hk (Or.inr ⟨e, rfl, hi⟩) hI)
        · simp at h
      · simp at h
      · simp at h

theorem writeChunks_keeping {W : Type} [Write W] {I : W → Prop}
    (h : ∀ s st, Keeping I (Write.writeStr (W := W) s st)) (chs : List Chunk) :
    Keeping I (Spec.writeChunks (W := W) chs) := by
  induction chs with
  | nil => intro s a s' h hI; obtain ⟨-, rfl⟩ := Prod.mk.inj h; exact hI
  | cons ch chs ih =>
    intro w u w' hx hI
    rw [writeChunks_cons] at hx
    rcases hy : Write.writeStr ch.1 ch.2 w with ⟨r, w1⟩
    rw [hy] at hx
    cases r with
    | ok v => exact ih _ _ _ hx (h _ _ _ _ _ hy hI)
    | err e => simp at hx
    | panic => simp at hx
    | diverge => simp at hx

end Writers

end Stylish
