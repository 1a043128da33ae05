import Verif.Spec.Buffered
/-
Buffered streams.
-/

namespace Stylish

open Spec

variable {cap fuel : Nat} {T : Type} [StdIoWrite T]

namespace BufWriter
variable {k : IoSink T} (hq : QuietPanics k)

omit [StdIoWrite T] in
theorem push_ok (b : Bytes) (s : BufWriter cap fuel T) (h : s.buf.length + b.length ≤ cap) :
    push b s = (.ok b.length, ⟨s.inner, s.buf ++ b, by simpa using h⟩) := by
  simp only [push, h, dite_true]

include hq in
/-- `flush_buf` loses nothing and adds nothing; when it returns `Ok` the buffer is empty; it never returns
`Interrupted`. -/
theorem flushBuf_spec (n : Nat) (s s' : BufWriter cap fuel T) (r : Res IoError Unit)
    (h : flushBuf n s = (r, s')) : BufWriter.held k s' = BufWriter.held k s ∧ (r = .ok () → s'.buf = []) ∧
      ∀ e, r = .err e → e.kind ≠ .Interrupted := by
  induction n generalizing s with
  | zero =>
    unfold flushBuf at h
    split at h <;> obtain ⟨rfl, rfl⟩ := Prod.mk.inj h
    · rename_i hb; exact ⟨rfl, fun _ => by simpa using hb, by simp⟩
    · exact ⟨rfl, by simp, by simp⟩
  | succ n ih =>
    unfold flushBuf at h
    by_cases hb : s.buf.isEmpty = true
    · rw [if_pos hb] at h
      obtain ⟨rfl, rfl⟩ := Prod.mk.inj h
      exact ⟨rfl, fun _ => by simpa using hb, by simp⟩
    · rw [if_neg hb] at h
      rcases hw : StdIoWrite.write s.buf s.inner with ⟨x, t⟩
      rw [hw] at h
      rcases x with (_ | m) | e | _ | _
      · obtain ⟨rfl, rfl⟩ := Prod.mk.inj h
        obtain ⟨-, hd⟩ := k.contract.ok _ _ _ _ hw
        refine ⟨by simpa [BufWriter.held] using hd, by simp, ?_⟩
        rintro e ⟨⟩; simp
      · obtain ⟨hm, hd⟩ := k.contract.ok _ _ _ _ hw
        simp only [hm, if_true] at h
        obtain ⟨h1, h2, h3⟩ := ih _ h
        refine ⟨?_, h2, h3⟩
        rw [h1]
        simp only [BufWriter.held, hd, List.map_id, List.append_assoc, List.take_append_drop]
      · have hd := k.contract.err _ _ _ _ hw
        by_cases hi : e.kind = .Interrupted
        · simp only [hi, if_true] at h
          obtain ⟨h1, h2, h3⟩ := ih _ h
          exact ⟨by rw [h1]; simp only [BufWriter.held, hd], h2, h3⟩
        · simp only [hi, if_false] at h
          obtain ⟨rfl, rfl⟩ := Prod.mk.inj h
          refine ⟨by simp only [BufWriter.held, hd], by simp, ?_⟩
          rintro e' ⟨⟩; exact hi
      · obtain ⟨rfl, rfl⟩ := Prod.mk.inj h
        have hd := hq _ _ _ _ hw (Or.inl rfl)
        exact ⟨by simp only [BufWriter.held, hd], by simp, by simp⟩
      · obtain ⟨rfl, rfl⟩ := Prod.mk.inj h
        have hd := hq _ _ _ _ hw (Or.inr rfl)
        exact ⟨by simp only [BufWriter.held, hd], by simp, by simp⟩

include hq in
theorem makeRoom_spec (b : Bytes) (s s' : BufWriter cap fuel T) (r : Res IoError Unit)
    (h : makeRoom b s = (r, s')) : BufWriter.held k s' = BufWriter.held k s ∧
      (r = .ok () → (cap ≤ b.length → s'.buf = []) ∧ (b.length < cap → s'.buf.length + b.length ≤ cap)) ∧
      (∀ e, r = .err e → e.kind ≠ .Interrupted ∧ b ≠ []) := by
  unfold makeRoom at h
  have hfit := s.fits
  split at h
  · rename_i hlt
    obtain ⟨h1, h2, h3⟩ := flushBuf_spec hq _ _ _ _ h
    refine ⟨h1, fun hr => ⟨fun _ => h2 hr, fun hb => ?_⟩, fun e he => ⟨h3 e he, ?_⟩⟩
    · rw [h2 hr]; simp; omega
    · rintro rfl; simp at hlt
  · rename_i hlt
    obtain ⟨rfl, rfl⟩ := Prod.mk.inj h
    refine ⟨rfl, fun _ => ⟨fun hb => ?_, fun hb => ?_⟩, by simp⟩
    · unfold spare at hlt
      exact List.length_eq_zero_iff.1 (by omega)
    · unfold spare at hlt; omega

include hq in
/-- What `write` does. -/
theorem write_spec (b : Bytes) (s s' : BufWriter cap fuel T) (r : Res IoError Nat) (h : write b s = (r, s')) :
    (∀ n, r = .ok n → n ≤ b.length ∧ BufWriter.held k s' = BufWriter.held k s ++ b.take n) ∧
    (∀ e, r = .err e → BufWriter.held k s' = BufWriter.held k s) ∧
    ((r = .panic ∨ r = .diverge) → BufWriter.held k s' = BufWriter.held k s) := by
  unfold write at h
  split at h
  · rename_i hlt
    rw [push_ok _ _ (by unfold spare at hlt; omega)] at h
    obtain ⟨rfl, rfl⟩ := Prod.mk.inj h
    refine ⟨?_, by simp, by simp⟩
    rintro n ⟨⟩
    simp [BufWriter.held]
  · rw [Act.bind_apply] at h
    rcases hm : makeRoom b s with ⟨x, s1⟩
    rw [hm] at h
    obtain ⟨h1, h2, -⟩ := makeRoom_spec hq _ _ _ _ hm
    cases x with
    | ok u =>
      obtain ⟨h2, h2'⟩ := h2 rfl
      simp only at h
      split at h
      · rename_i hc
        simp only [onInner] at h
        rcases hw : StdIoWrite.write b s1.inner with ⟨y, t⟩
        rw [hw] at h
        obtain ⟨rfl, rfl⟩ := Prod.mk.inj h
        rw [← h1]
        simp only [BufWriter.held, h2 hc, List.append_nil]
        refine ⟨?_, ?_, ?_⟩
        · rintro n rfl
          simpa using k.contract.ok _ _ _ _ hw
        · rintro e rfl
          exact k.contract.err _ _ _ _ hw
        · exact hq _ _ _ _ hw
      · rename_i hc
        rw [push_ok _ _ (h2' (by omega))] at h
        obtain ⟨rfl, rfl⟩ := Prod.mk.inj h
        refine ⟨?_, by simp, by simp⟩
        rintro n ⟨⟩
        rw [← h1]
        simp [BufWriter.held]
    | err e => obtain ⟨rfl, rfl⟩ := Prod.mk.inj h; exact ⟨by simp, fun _ _ => h1, by simp⟩
    | panic => obtain ⟨rfl, rfl⟩ := Prod.mk.inj h; exact ⟨by simp, by simp, fun _ => h1⟩
    | diverge => obtain ⟨rfl, rfl⟩ := Prod.mk.inj h; exact ⟨by simp, by simp, fun _ => h1⟩

include hq in
/-- What `write_all` does. -/
theorem writeAll_spec (n : Nat) (b : Bytes) (s s' : BufWriter cap fuel T) (r : Res IoError Unit)
    (h : writeAll n b s = (r, s')) : ∃ p, p <+: b ∧ BufWriter.held k s' = BufWriter.held k s ++ p ∧
      (r = .ok () → p = b) ∧ (∀ e, r = .err e → e.kind ≠ .Interrupted ∧ (b ≠ [] → 10 ∉ b → p ≠ b)) := by
  unfold writeAll at h
  split at h
  · rename_i hlt
    rw [Act.bind_apply, push_ok _ _ (by unfold spare at hlt; omega)] at h
    obtain ⟨rfl, rfl⟩ := Prod.mk.inj h
    exact ⟨b, List.prefix_rfl, by simp [BufWriter.held], by simp, by simp⟩
  · rw [Act.bind_apply] at h
    rcases hm : makeRoom b s with ⟨x, s1⟩
    rw [hm] at h
    obtain ⟨h1, h2, h3⟩ := makeRoom_spec hq _ _ _ _ hm
    cases x with
    | ok u =>
      obtain ⟨h2, h2'⟩ := h2 rfl
      simp only at h
      split at h
      · rename_i hc
        simp only [onInner] at h
        rcases hw : StdIoWrite.writeAll n b s1.inner with ⟨y, t⟩
        rw [hw] at h
        obtain ⟨rfl, rfl⟩ := Prod.mk.inj h
        rw [← h1]
        simp only [BufWriter.held, h2 hc, List.append_nil]
        cases y with
        | ok u => exact ⟨b, List.prefix_rfl, k.all.ok _ _ _ _ hw, by simp, by simp⟩
        | err e =>
          obtain ⟨g1, p, g2, g3, g4⟩ := k.all.err _ _ _ _ _ hw
          refine ⟨p, g2, g4, by simp, ?_⟩
          rintro e' ⟨⟩; exact ⟨g1, g3⟩
        | panic =>
          obtain ⟨p, g2, g4⟩ := k.all.other _ _ _ _ _ hw (Or.inl rfl)
          exact ⟨p, g2, g4, by simp, by simp⟩
        | diverge =>
          obtain ⟨p, g2, g4⟩ := k.all.other _ _ _ _ _ hw (Or.inr rfl)
          exact ⟨p, g2, g4, by simp, by simp⟩
      · rename_i hc
        rw [Act.bind_apply, push_ok _ _ (h2' (by omega))] at h
        obtain ⟨rfl, rfl⟩ := Prod.mk.inj h
        exact ⟨b, List.prefix_rfl, by rw [← h1]; simp [BufWriter.held], by simp, by simp⟩
    | err e =>
      obtain ⟨rfl, rfl⟩ := Prod.mk.inj h
      refine ⟨[], by simp, by simpa using h1, by simp, ?_⟩
      rintro e' ⟨⟩
      exact ⟨(h3 e rfl).1, fun hb _ he => hb he.symm⟩
    | panic => obtain ⟨rfl, rfl⟩ := Prod.mk.inj h; exact ⟨[], by simp, by simpa using h1, by simp, by simp⟩
    | diverge => obtain ⟨rfl, rfl⟩ := Prod.mk.inj h; exact ⟨[], by simp, by simpa using h1, by simp, by simp⟩

/-- A buffered stream obeys the contracts of a stream. -/
def sink (k : IoSink T) (hq : QuietPanics k) : IoSink (BufWriter cap fuel T) where
  delivered := BufWriter.held k
  contract :=
    { ok := fun b s s' n h => by simpa using (write_spec hq b s s' _ h).1 n rfl
      err := fun b s s' e h => (write_spec hq b s s' _ h).2.1 e rfl
      other := fun b s s' r h hr => ⟨[], by simp, by simpa using (write_spec hq b s s' _ h).2.2 hr⟩ }
  all :=
    { ok := fun n b s s' h => by
        obtain ⟨p, -, h1, h2, -⟩ := writeAll_spec hq n b s s' _ h
        rw [h1, h2 rfl]
      err := fun n b s s' e h => by
        obtain ⟨p, h0, h1, -, h2⟩ := writeAll_spec hq n b s s' _ h
        exact ⟨(h2 e rfl).1, p, h0, (h2 e rfl).2, h1⟩
      other := fun n b s s' r h _ => by
        obtain ⟨p, h0, h1, -⟩ := writeAll_spec hq n b s s' _ h
        exact ⟨p, h0, h1⟩ }

include hq in
theorem sink_quiet : QuietPanics (sink (cap := cap) (fuel := fuel) k hq) :=
  fun b s s' r h hr => (write_spec hq b s s' r h).2.2 hr

include hq in
/-- What `flush` does. -/
theorem flush_spec (hk : FlushKeeps k) (s s' : BufWriter cap fuel T) (r : Res IoError Unit)
    (h : flush s = (r, s')) : BufWriter.held k s' = BufWriter.held k s ∧ (r = .ok () → s'.buf = []) := by
  unfold flush at h
  rw [Act.bind_apply] at h
  rcases hf : flushBuf fuel s with ⟨x, s1⟩
  rw [hf] at h
  obtain ⟨h1, h2, -⟩ := flushBuf_spec hq _ _ _ _ hf
  cases x with
  | ok u =>
    simp only [onInner] at h
    rcases hw : StdIoWrite.flush s1.inner with ⟨y, t⟩
    rw [hw] at h
    obtain ⟨rfl, rfl⟩ := Prod.mk.inj h
    have := hk _ _ _ hw
    exact ⟨by rw [← h1]; simp only [BufWriter.held, this], fun _ => h2 rfl⟩
  | err e => obtain ⟨rfl, rfl⟩ := Prod.mk.inj h; exact ⟨h1, by simp⟩
  | panic => obtain ⟨rfl, rfl⟩ := Prod.mk.inj h; exact ⟨h1, by simp⟩
  | diverge => obtain ⟨rfl, rfl⟩ := Prod.mk.inj h; exact ⟨h1, by simp⟩

end BufWriter

/-! ### Lines -/

theorem memrchr_lt (x : UInt8) (b : Bytes) (i : Nat) (h : memrchr x b = some i) : i < b.length := by
  induction b generalizing i with
  | nil => simp [memrchr] at h
  | cons y ys ih =>
    unfold memrchr at h
    split at h
    · rename_i j hj
      have := ih j hj
      simp at h
      simp; omega
    · split at h <;> simp at h
      simp; omega

/-- What follows the last `x` has none. -/
theorem memrchr_after (x : UInt8) (b : Bytes) (i : Nat) (h : memrchr x b = some i) :
    b[i]? = some x ∧ x ∉ b.drop (i + 1) := by
  have hnone : ∀ b : Bytes, memrchr x b = none → x ∉ b := by
    intro b
    induction b with
    | nil => simp
    | cons y ys ih =>
      intro h
      unfold memrchr at h
      split at h
      · simp at h
      · rename_i hn
        split at h
        · simp at h
        · rename_i hy
          simp only [List.mem_cons, not_or]
          exact ⟨fun e => hy e.symm, ih hn⟩
  induction b generalizing i with
  | nil => simp [memrchr] at h
  | cons y ys ih =>
    unfold memrchr at h
    split at h
    · rename_i j hj
      simp at h
      subst h
      simpa using ih j hj
    · rename_i hn
      split at h <;> simp at h
      subst h
      rename_i hy
      exact ⟨by simp [hy], by simpa using hnone ys hn⟩

theorem memrchr_none (x : UInt8) (b : Bytes) (h : memrchr x b = none) : x ∉ b := by
  induction b with
  | nil => simp
  | cons y ys ih =>
    unfold memrchr at h
    split at h
    · simp at h
    · rename_i hn
      split at h
      · simp at h
      · rename_i hy
        simp only [List.mem_cons, not_or]
        exact ⟨fun e => hy e.symm, ih hn⟩

namespace LineWriter
variable {keep : Bytes → Nat → Nat} {k : IoSink T} (hq : QuietPanics k)

omit [StdIoWrite T] in
/-- Undo `onBuffer`. -/
theorem onBuffer_inv {E A : Type} {x : Act (BufWriter cap fuel T) E A} {s s' : LineWriter cap fuel keep T}
    {r : Res E A} (h : onBuffer x s = (r, s')) : x s.buffer = (r, s'.buffer) := by
  simp only [onBuffer] at h
  rcases hx : x s.buffer with ⟨y, t⟩
  rw [hx] at h
  obtain ⟨rfl, rfl⟩ := Prod.mk.inj h
  rfl

include hq in
theorem flushIf_spec (s s' : LineWriter cap fuel keep T) (r : Res IoError Unit)
    (h : flushIfCompletedLine s = (r, s')) : LineWriter.held k s' = LineWriter.held k s ∧
      ∀ e, r = .err e → e.kind ≠ .Interrupted := by
  unfold flushIfCompletedLine at h
  split at h
  · obtain ⟨h1, -, h3⟩ := BufWriter.flushBuf_spec hq _ _ _ _ (onBuffer_inv h)
    exact ⟨h1, h3⟩
  · obtain ⟨rfl, rfl⟩ := Prod.mk.inj h
    exact ⟨rfl, by simp⟩

omit [StdIoWrite T] in
theorem writeToBuf_ok (b : Bytes) (s : BufWriter cap fuel T) :
    writeToBuf b s = (.ok (b.take s.spare).length, ⟨s.inner, s.buf ++ b.take s.spare, by
      have := s.fits; simp [BufWriter.spare]; omega⟩) := by
  unfold writeToBuf
  rw [BufWriter.push_ok]
  have := s.fits
  simp [BufWriter.spare]; omega

include hq in
/-- What `write` does. -/
theorem write_spec (b : Bytes) (s s' : LineWriter cap fuel keep T) (r : Res IoError Nat) (h : write b s = (r, s')) :
    (∀ n, r = .ok n → n ≤ b.length ∧ LineWriter.held k s' = LineWriter.held k s ++ b.take n) ∧
    (∀ e, r = .err e → LineWriter.held k s' = LineWriter.held k s) ∧
    ((r = .panic ∨ r = .diverge) → LineWriter.held k s' = LineWriter.held k s) := by
  unfold write at h
  rcases hi : memrchr 10 b with _ | i
  · simp only [hi] at h
    rw [Act.bind_apply] at h
    rcases hf : flushIfCompletedLine s with ⟨x, s1⟩
    rw [hf] at h
    have h1 := (flushIf_spec hq _ _ _ hf).1
    rw [← h1]
    cases x with
    | ok u => exact BufWriter.write_spec hq b s1.buffer s'.buffer r (onBuffer_inv h)
    | err e => obtain ⟨rfl, rfl⟩ := Prod.mk.inj h; exact ⟨by simp, fun _ _ => rfl, by simp⟩
    | panic => obtain ⟨rfl, rfl⟩ := Prod.mk.inj h; exact ⟨by simp, by simp, fun _ => rfl⟩
    | diverge => obtain ⟨rfl, rfl⟩ := Prod.mk.inj h; exact ⟨by simp, by simp, fun _ => rfl⟩
  · simp only [hi] at h
    rw [Act.bind_apply] at h
    rcases hf : onBuffer (BufWriter.flushBuf fuel) s with ⟨x, s1⟩
    rw [hf] at h
    obtain ⟨h1, h2, -⟩ := BufWriter.flushBuf_spec hq _ _ _ _ (onBuffer_inv hf)
    have h1 : LineWriter.held k s1 = LineWriter.held k s := h1
    rw [← h1]
    cases x with
    | err e => obtain ⟨rfl, rfl⟩ := Prod.mk.inj h; exact ⟨by simp, fun _ _ => rfl, by simp⟩
    | panic => obtain ⟨rfl, rfl⟩ := Prod.mk.inj h; exact ⟨by simp, by simp, fun _ => rfl⟩
    | diverge => obtain ⟨rfl, rfl⟩ := Prod.mk.inj h; exact ⟨by simp, by simp, fun _ => rfl⟩
    | ok u =>
      have h2 := h2 rfl
      simp only [Act.bind_apply] at h
      obtain ⟨⟨t1, b1, f1⟩⟩ := s1
      simp only at h2
      subst h2
      simp only [onBuffer, BufWriter.onInner] at h
      rcases hw : StdIoWrite.write (b.take (i + 1)) t1 with ⟨y, t⟩
      rw [hw] at h
      simp only [LineWriter.held, List.append_nil]
      have hlt := memrchr_lt _ _ _ hi
      cases y with
      | ok n =>
        obtain ⟨hn, hd⟩ := k.contract.ok _ _ _ _ hw
        simp only at h
        by_cases h0 : n = 0
        · simp only [h0, if_true] at h
          obtain ⟨rfl, rfl⟩ := Prod.mk.inj h
          subst h0
          refine ⟨?_, by simp, by simp⟩
          rintro n ⟨⟩
          simpa using hd
        · have hn' : n ≤ b.length := by rw [List.length_take] at hn; omega
          simp only [h0, if_false, hn', if_true] at h
          simp only [Act.bind_apply, onBuffer, writeToBuf_ok] at h
          obtain ⟨rfl, rfl⟩ := Prod.mk.inj h
          refine ⟨?_, by simp, by simp⟩
          rintro m ⟨⟩
          dsimp only
          generalize hp : List.take _ (List.take _ _) = p
          have hpre : p <+: b.drop n := by
            rw [← hp]
            exact (List.take_prefix _ _).trans (List.take_prefix _ _)
          have htake : (b.take (i + 1)).take n = b.take n := by
            rw [List.length_take] at hn
            rw [List.take_take]; congr 1; omega
          obtain ⟨rest, hr⟩ := hpre
          refine ⟨?_, ?_⟩
          · have := congrArg List.length hr
            simp at this
            omega
          · rw [hd, List.map_id, htake, List.append_assoc]
            simp only [List.nil_append]
            rw [List.take_add, ← hr]
            simp
      | err e =>
        obtain ⟨rfl, rfl⟩ := Prod.mk.inj h
        exact ⟨by simp, fun _ _ => by simpa using k.contract.err _ _ _ _ hw, by simp⟩
      | panic =>
        obtain ⟨rfl, rfl⟩ := Prod.mk.inj h
        exact ⟨by simp, by simp, fun hr => by simpa using hq _ _ _ _ hw (Or.inl rfl)⟩
      | diverge =>
        obtain ⟨rfl, rfl⟩ := Prod.mk.inj h
        exact ⟨by simp, by simp, fun hr => by simpa using hq _ _ _ _ hw (Or.inr rfl)⟩

/-- The first half of `write_all`: the lines. -/
def putLines (n : Nat) (l : Bytes) : Act (LineWriter cap fuel keep T) IoError Unit := fun s =>
  if s.buffer.buf.isEmpty then onBuffer (BufWriter.onInner (StdIoWrite.writeAll n l)) s
  else (onBuffer (BufWriter.writeAll n l) >>= fun _ => onBuffer (BufWriter.flushBuf fuel)) s

include hq in
theorem putLines_spec (n : Nat) (l : Bytes) (s s' : LineWriter cap fuel keep T) (r : Res IoError Unit)
    (h : putLines n l s = (r, s')) : ∃ p, p <+: l ∧ LineWriter.held k s' = LineWriter.held k s ++ p ∧
      (r = .ok () → p = l ∧ s'.buffer.buf = []) ∧ (∀ e, r = .err e → e.kind ≠ .Interrupted) := by
  unfold putLines at h
  split at h
  · rename_i hb
    have hb : s.buffer.buf = [] := by simpa using hb
    have h := onBuffer_inv h
    simp only [BufWriter.onInner] at h
    rcases hw : StdIoWrite.writeAll n l s.buffer.inner with ⟨y, t⟩
    rw [hw] at h
    obtain ⟨rfl, h2⟩ := Prod.mk.inj h
    simp only [LineWriter.held, ← h2, hb, List.append_nil]
    cases y with
    | ok u => exact ⟨l, List.prefix_rfl, k.all.ok _ _ _ _ hw, by simp, by simp⟩
    | err e =>
      obtain ⟨g1, p, g2, g3, g4⟩ := k.all.err _ _ _ _ _ hw
      refine ⟨p, g2, g4, by simp, ?_⟩
      rintro e' ⟨⟩; exact g1
    | panic =>
      obtain ⟨p, g2, g4⟩ := k.all.other _ _ _ _ _ hw (Or.inl rfl)
      exact ⟨p, g2, g4, by simp, by simp⟩
    | diverge =>
      obtain ⟨p, g2, g4⟩ := k.all.other _ _ _ _ _ hw (Or.inr rfl)
      exact ⟨p, g2, g4, by simp, by simp⟩
  · rw [Act.bind_apply] at h
    rcases hw : onBuffer (BufWriter.writeAll n l) s with ⟨x, s1⟩
    rw [hw] at h
    obtain ⟨p, h1, h2, h3, h4⟩ := BufWriter.writeAll_spec hq _ _ _ _ _ (onBuffer_inv hw)
    have h2 : LineWriter.held k s1 = LineWriter.held k s ++ p := h2
    cases x with
    | ok u =>
      obtain ⟨g1, g2, g3⟩ := BufWriter.flushBuf_spec hq _ _ _ _ (onBuffer_inv h)
      have g1 : LineWriter.held k s' = LineWriter.held k s1 := g1
      exact ⟨p, h1, by rw [g1, h2], fun hr => ⟨h3 rfl, g2 hr⟩, g3⟩
    | err e =>
      obtain ⟨rfl, rfl⟩ := Prod.mk.inj h
      exact ⟨p, h1, h2, by simp, by rintro e' ⟨⟩; exact (h4 e rfl).1⟩
    | panic => obtain ⟨rfl, rfl⟩ := Prod.mk.inj h; exact ⟨p, h1, h2, by simp, by simp⟩
    | diverge => obtain ⟨rfl, rfl⟩ := Prod.mk.inj h; exact ⟨p, h1, h2, by simp, by simp⟩

include hq in
/-- What `write_all` does. -/
theorem writeAll_spec (n : Nat) (b : Bytes) (s s' : LineWriter cap fuel keep T) (r : Res IoError Unit)
    (h : writeAll n b s = (r, s')) : ∃ p, p <+: b ∧ LineWriter.held k s' = LineWriter.held k s ++ p ∧
      (r = .ok () → p = b) ∧ (∀ e, r = .err e → e.kind ≠ .Interrupted ∧ (b ≠ [] → 10 ∉ b → p ≠ b)) := by
  unfold writeAll at h
  rcases hi : memrchr 10 b with _ | i
  · simp only [hi] at h
    rw [Act.bind_apply] at h
    rcases hf : flushIfCompletedLine s with ⟨x, s1⟩
    rw [hf] at h
    obtain ⟨h1, h2⟩ := flushIf_spec hq _ _ _ hf
    rw [← h1]
    cases x with
    | ok u => exact BufWriter.writeAll_spec hq n b s1.buffer s'.buffer r (onBuffer_inv h)
    | err e =>
      obtain ⟨rfl, rfl⟩ := Prod.mk.inj h
      refine ⟨[], by simp, by simp, by simp, ?_⟩
      rintro e' ⟨⟩
      exact ⟨h2 e rfl, fun hb _ he => hb he.symm⟩
    | panic => obtain ⟨rfl, rfl⟩ := Prod.mk.inj h; exact ⟨[], by simp, by simp, by simp, by simp⟩
    | diverge => obtain ⟨rfl, rfl⟩ := Prod.mk.inj h; exact ⟨[], by simp, by simp, by simp, by simp⟩
  · simp only [hi] at h
    have hmem : (10 : UInt8) ∈ b := List.mem_of_getElem? (memrchr_after _ _ _ hi).1
    have h : (putLines n (b.take (i + 1)) >>= fun _ => onBuffer (BufWriter.writeAll n (b.drop (i + 1)))) s =
      (r, s') := h
    rw [Act.bind_apply] at h
    rcases hl : putLines n (b.take (i + 1)) s with ⟨x, s1⟩
    rw [hl] at h
    obtain ⟨p, h1, h2, h3, h4⟩ := putLines_spec hq _ _ _ _ _ hl
    cases x with
    | ok u =>
      obtain ⟨p', g1, g2, g3, g4⟩ := BufWriter.writeAll_spec hq _ _ _ _ _ (onBuffer_inv h)
      have g2 : LineWriter.held k s' = LineWriter.held k s1 ++ p' := g2
      obtain ⟨rfl, -⟩ := h3 rfl
      refine ⟨b.take (i + 1) ++ p', ?_, by rw [g2, h2, List.append_assoc], fun hr => ?_,
        fun e he => ⟨(g4 e he).1, fun _ hn => absurd hmem hn⟩⟩
      · obtain ⟨rest, hr⟩ := g1
        exact ⟨rest, by rw [List.append_assoc, hr, List.take_append_drop]⟩
      · rw [g3 hr, List.take_append_drop]
    | err e =>
      obtain ⟨rfl, rfl⟩ := Prod.mk.inj h
      refine ⟨p, h1.trans (List.take_prefix _ _), h2, by simp, ?_⟩
      rintro e' ⟨⟩
      exact ⟨h4 e rfl, fun _ hn => absurd hmem hn⟩
    | panic =>
      obtain ⟨rfl, rfl⟩ := Prod.mk.inj h
      exact ⟨p, h1.trans (List.take_prefix _ _), h2, by simp, by simp⟩
    | diverge =>
      obtain ⟨rfl, rfl⟩ := Prod.mk.inj h
      exact ⟨p, h1.trans (List.take_prefix _ _), h2, by simp, by simp⟩

/-- A line-buffered stream obeys the contracts of a stream. -/
def sink (k : IoSink T) (hq : QuietPanics k) : IoSink (LineWriter cap fuel keep T) where
  delivered := LineWriter.held k
  contract :=
    { ok := fun b s s' n h => by simpa using (write_spec hq b s s' _ h).1 n rfl
      err := fun b s s' e h => (write_spec hq b s s' _ h).2.1 e rfl
      other := fun b s s' r h hr => ⟨[], by simp, by simpa using (write_spec hq b s s' _ h).2.2 hr⟩ }
  all :=
    { ok := fun n b s s' h => by
        obtain ⟨p, -, h1, h2, -⟩ := writeAll_spec hq n b s s' _ h
        rw [h1, h2 rfl]
      err := fun n b s s' e h => by
        obtain ⟨p, h0, h1, -, h2⟩ := writeAll_spec hq n b s s' _ h
        exact ⟨(h2 e rfl).1, p, h0, (h2 e rfl).2, h1⟩
      other := fun n b s s' r h _ => by
        obtain ⟨p, h0, h1, -⟩ := writeAll_spec hq n b s s' _ h
        exact ⟨p, h0, h1⟩ }

end LineWriter

end Stylish
