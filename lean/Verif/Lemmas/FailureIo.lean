import Verif.Lemmas.Failure
import Verif.Lemmas.IoWriters
/-
Where a failing `io` write can stop.
-/

namespace Stylish

open Spec

variable {S E A B α σ : Type}

/-- As `Stops`, for the outcomes `Ok` and `Err` only. -/
def StopsE (del : S → List α) (get : S → σ) (x : Act S E A) (out : List α) : Prop :=
  ∀ s r s', x s = (r, s') → ((∃ a, r = .ok a) → get s' = get s ∧ del s' = del s ++ out) ∧
    ((∃ e, r = .err e) → get s' = get s ∧ ∃ p, p <+: out ∧ p ≠ out ∧ del s' = del s ++ p)

theorem StopsE.pure {del : S → List α} {get : S → σ} (a : A) :
    StopsE del get (pure a : Act S E A) [] := by
  intro s r s' h
  obtain ⟨rfl, rfl⟩ := Prod.mk.inj h
  exact ⟨fun _ => ⟨rfl, by simp⟩, by rintro ⟨e, he⟩; simp at he⟩

theorem StopsE.bind {del : S → List α} {get : S → σ} {x : Act S E A} {f : A → Act S E B}
    {o1 o2 : List α} (hx : StopsE del get x o1) (hf : ∀ a, StopsE del get (f a) o2) :
    StopsE del get (x >>= f) (o1 ++ o2) := by
  intro s r s' h
  rw [Act.bind_apply] at h
  rcases hxs : x s with ⟨rx, s1⟩
  rw [hxs] at h
  obtain ⟨hok, herr⟩ := hx s rx s1 hxs
  cases rx with
  | ok a =>
    obtain ⟨hg, hd⟩ := hok ⟨a, rfl⟩
    obtain ⟨hok', herr'⟩ := hf a s1 r s' h
    refine ⟨fun hr => ?_, fun hr => ?_⟩
    · obtain ⟨h1, h2⟩ := hok' hr
      exact ⟨h1.trans hg, by rw [h2, hd, List.append_assoc]⟩
    · obtain ⟨h1, p, h2, h3, h4⟩ := herr' hr
      exact ⟨h1.trans hg, o1 ++ p, by simpa using h2, by simpa using h3,
        by rw [h4, hd, List.append_assoc]⟩
  | err e =>
    obtain ⟨rfl, rfl⟩ := Prod.mk.inj h
    refine ⟨by rintro ⟨a, ha⟩; simp at ha, fun _ => ?_⟩
    obtain ⟨hg, p, h1, h2, h3⟩ := herr ⟨e, rfl⟩
    refine ⟨hg, p, h1.trans (List.prefix_append _ _), ?_, h3⟩
    rintro rfl
    have := h1.length_le
    simp only [List.length_append] at this
    have : o2 = [] := List.length_eq_zero_iff.1 (by omega)
    subst this
    simp at h2
  | panic =>
    obtain ⟨rfl, rfl⟩ := Prod.mk.inj h
    exact ⟨by rintro ⟨a, ha⟩; simp at ha, by rintro ⟨a, ha⟩; simp at ha⟩
  | diverge =>
    obtain ⟨rfl, rfl⟩ := Prod.mk.inj h
    exact ⟨by rintro ⟨a, ha⟩; simp at ha, by rintro ⟨a, ha⟩; simp at ha⟩

theorem StopsE.cast {del : S → List α} {get : S → σ} {x : Act S E A} {o1 o2 : List α}
    (h : StopsE del get x o1) (ho : o1 = o2) : StopsE del get x o2 := ho ▸ h

namespace IoAnsi
variable {fuel : Nat} {T : Type} [StdIoWrite T] {k : IoSink T}

theorem put_stops (s : Str) (hs : s ≠ [] ∧ 10 ∉ utf8 s) :
    StopsE (del k) current (put (fuel := fuel) (T := T) s) (utf8 s) := by
  intro a r a' h
  simp only [put, onInner] at h
  rcases hw : StdIoWrite.writeAll fuel (utf8 s) a.inner with ⟨rr, t⟩
  rw [hw] at h
  obtain ⟨rfl, rfl⟩ := Prod.mk.inj h
  refine ⟨?_, ?_⟩
  · rintro ⟨u, rfl⟩
    exact ⟨rfl, k.all.ok _ _ _ _ hw⟩
  · rintro ⟨e, rfl⟩
    obtain ⟨-, p, h1, h2, h3⟩ := k.all.err _ _ _ _ _ hw
    exact ⟨rfl, p, h1, h2 (by rw [ne_eq, utf8_eq_nil]; exact hs.1) hs.2, h3⟩

theorem putRest_stops (l : List Str) (hl : ∀ x ∈ l, x ≠ [] ∧ 10 ∉ utf8 x) :
    StopsE (del k) current (putRest (fuel := fuel) (T := T) l) (utf8 (ansiRest l)) := by
  induction l with
  | nil => exact StopsE.pure _
  | cons x l ih =>
    have e : ansiRest (x :: l) = str ";" ++ (x ++ ansiRest l) := by simp [ansiRest, str]
    exact ((put_stops _ (by decide)).bind fun _ => (put_stops _ (hl x (by simp))).bind fun _ =>
      ih fun y hy => hl y (by simp [hy])).cast (by rw [e, utf8_append, utf8_append])

theorem putSegments_stops (l : List Str) (hl : ∀ x ∈ l, x ≠ [] ∧ 10 ∉ utf8 x) :
    StopsE (del k) current (putSegments (fuel := fuel) (T := T) l) (utf8 (ansiSegs l)) := by
  cases l with
  | nil => exact StopsE.pure _
  | cons x l =>
    exact ((put_stops _ (by decide)).bind fun _ => (put_stops _ (hl x (by simp))).bind fun _ =>
      (putRest_stops _ fun y hy => hl y (by simp [hy])).bind fun _ => put_stops _ (by decide)).cast
      (by simp only [ansiSegs, utf8_append, List.append_assoc])

theorem segments_one_line (d : StyleDiff) : ∀ x ∈ segments d, x ≠ [] ∧ 10 ∉ utf8 x := by
  have h1 : ∀ c, str (AnsiUtil.foreground c) ≠ [] ∧ 10 ∉ utf8 (str (AnsiUtil.foreground c)) := by intro c; cases c <;> decide
  have h2 : ∀ c, str (AnsiUtil.background c) ≠ [] ∧ 10 ∉ utf8 (str (AnsiUtil.background c)) := by intro c; cases c <;> decide
  have h3 : ∀ i, str (AnsiUtil.intensity i) ≠ [] ∧ 10 ∉ utf8 (str (AnsiUtil.intensity i)) := by intro i; cases i <;> decide
  intro x hx
  simp only [segments, List.mem_filterMap, List.mem_cons, List.not_mem_nil, or_false, id] at hx
  obtain ⟨o, ho, rfl⟩ := hx
  rcases ho with ho | ho | ho <;> obtain ⟨c, -, rfl⟩ := Option.map_eq_some_iff.1 ho.symm
  · exact h1 c
  · exact h2 c
  · exact h3 c

theorem switchStyle_stops (c s : Style) :
    StopsE (del k) current (switchStyle (fuel := fuel) (T := T) c s) (ansiSwitchBytes c s) := by
  unfold switchStyle ansiSwitchBytes ansiSwitch
  split
  · exact put_stops _ (by decide)
  · exact putSegments_stops _ (segments_one_line _)

/-- Where a call of `write` or a non-empty `write_all` can stop. -/
inductive Halt (k : IoSink T) (b : Bytes) (st : Style) (r : Res IoError Nat) (a a' : IoAnsi fuel T) : Prop
  | inSwitch (e : IoError) (p : Bytes) : r = .err e → a'.current = a.current →
      p <+: ansiSwitchBytes a.current st → p ≠ ansiSwitchBytes a.current st →
      del k a' = del k a ++ p → Halt k b st r a a'
  | inText (p : Bytes) : a'.current = st → p <+: b →
      (∀ n, r = .ok n → n ≤ b.length ∧ p = b.take n) →
      del k a' = del k a ++ (ansiSwitchBytes a.current st ++ p) → Halt k b st r a a'

theorem Halt.of (b : Bytes) (st : Style) (x : Act T IoError Nat)
    (hx : ∀ t r t', x t = (r, t') → (∃ n, r = .ok n) ∨ (∃ e, r = .err e) →
      ∃ p, p <+: b ∧ (∀ n, r = .ok n → n ≤ b.length ∧ p = b.take n) ∧
        k.delivered t' = k.delivered t ++ p)
    (r : Res IoError Nat) (a a' : IoAnsi fuel T)
    (h : (switchStyle a.current st >>= fun _ => setCurrent st >>= fun _ => onInner x) a = (r, a'))
    (hr : (∃ n, r = .ok n) ∨ (∃ e, r = .err e)) : Halt k b st r a a' := by
  rw [Act.bind_apply] at h
  rcases hs : switchStyle a.current st a with ⟨r1, a1⟩
  rw [hs] at h
  obtain ⟨hok, herr⟩ := switchStyle_stops (k := k) a.current st a r1 a1 hs
  cases r1 with
  | ok u =>
    obtain ⟨hg, hd⟩ := hok ⟨u, rfl⟩
    have h : onInner x { a1 with current := st } = (r, a') := h
    simp only [onInner] at h
    rcases hxx : x a1.inner with ⟨rx, t⟩
    rw [hxx] at h
    obtain ⟨rfl, rfl⟩ := Prod.mk.inj h
    obtain ⟨p, h1, h2, h3⟩ := hx _ _ _ hxx hr
    refine .inText p rfl h1 h2 ?_
    have hd : k.delivered a1.inner = k.delivered a.inner ++ ansiSwitchBytes a.current st := hd
    show k.delivered t = _
    rw [h3, hd, List.append_assoc]
  | err e =>
    obtain ⟨rfl, rfl⟩ := Prod.mk.inj h
    obtain ⟨hg, p, h1, h2, h3⟩ := herr ⟨e, rfl⟩
    exact .inSwitch e p rfl hg h1 h2 h3
  | panic =>
    obtain ⟨rfl, rfl⟩ := Prod.mk.inj h
    rcases hr with ⟨n, hr⟩ | ⟨e, hr⟩ <;> simp at hr
  | diverge =>
    obtain ⟨rfl, rfl⟩ := Prod.mk.inj h
    rcases hr with ⟨n, hr⟩ | ⟨e, hr⟩ <;> simp at hr

theorem write_halt (b : Bytes) (st : Style) (r : Res IoError Nat) (a a' : IoAnsi fuel T)
    (h : IoWrite.write b st a = (r, a')) (hr : (∃ n, r = .ok n) ∨ (∃ e, r = .err e)) :
    Halt k b st r a a' := by
  refine Halt.of b st (StdIoWrite.write b) ?_ r a a' h hr
  rintro t r t' hx (⟨n, rfl⟩ | ⟨e, rfl⟩)
  · obtain ⟨h1, h2⟩ := k.contract.ok _ _ _ _ hx
    exact ⟨b.take n, List.take_prefix _ _, by rintro m ⟨⟩; exact ⟨h1, rfl⟩, by simpa using h2⟩
  · exact ⟨[], by simp, by simp, by simpa using k.contract.err _ _ _ _ hx⟩

/-- `write_all`, returning the length of the buffer. -/
def writeAllLen (b : Bytes) (st : Style) : Act (IoAnsi fuel T) IoError Nat := do
  IoWrite.writeAll b st
  return b.length

theorem writeAll_halt (b : Bytes) (hb : b ≠ []) (st : Style) (r : Res IoError Nat) (a a' : IoAnsi fuel T)
    (h : writeAllLen b st a = (r, a')) (hr : (∃ n, r = .ok n) ∨ (∃ e, r = .err e)) :
    Halt k b st r a a' := by
  have h : (defaultWriteAll write fuel b st >>= fun _ => pure b.length) a = (r, a') := h
  cases fuel with
  | zero =>
    have hne : ¬ b.isEmpty = true := by simpa using hb
    have e0 : defaultWriteAll write 0 b st a = (.diverge, a) := by
      simp only [defaultWriteAll]; rw [if_neg hne]
    rw [Act.bind_apply, e0] at h
    obtain ⟨rfl, rfl⟩ := Prod.mk.inj h
    rcases hr with ⟨n, hr⟩ | ⟨e, hr⟩ <;> simp at hr
  | succ n =>
    have e : (defaultWriteAll write (n + 1) b st >>= fun _ => pure b.length) a =
        (switchStyle a.current st >>= fun _ => setCurrent st >>= fun _ =>
          onInner (stdWriteAll StdIoWrite.write (n + 1) b >>= fun _ => pure b.length)) a := by
      rw [Act.bind_apply, loop_eq k n b hb, Act.bind_apply, Act.bind_apply]
      rcases switchStyle a.current st a with ⟨r1, a1⟩
      cases r1 with
      | ok u =>
        simp only [Act.bind_apply, setCurrent, onInner]
        rcases stdWriteAll StdIoWrite.write (n + 1) b a1.inner with ⟨r2, t⟩
        cases r2 <;> rfl
      | err e => rfl
      | panic => rfl
      | diverge => rfl
    rw [e] at h
    refine Halt.of b st _ ?_ r a a' h hr
    intro t r t' hx hr
    rw [Act.bind_apply] at hx
    have he := std_emits k (n + 1) b t
    rcases hs : stdWriteAll StdIoWrite.write (n + 1) b t with ⟨r1, t1⟩
    rw [hs] at hx he
    cases r1 with
    | ok u =>
      obtain ⟨rfl, rfl⟩ := Prod.mk.inj hx
      exact ⟨b, List.prefix_rfl, by rintro m ⟨⟩; simp, he.1⟩
    | err e =>
      obtain ⟨rfl, rfl⟩ := Prod.mk.inj hx
      obtain ⟨p, h1, h2⟩ := he
      exact ⟨p, h1, by simp, h2⟩
    | panic =>
      obtain ⟨rfl, rfl⟩ := Prod.mk.inj hx
      rcases hr with ⟨n, hr⟩ | ⟨e, hr⟩ <;> simp at hr
    | diverge =>
      obtain ⟨rfl, rfl⟩ := Prod.mk.inj hx
      rcases hr with ⟨n, hr⟩ | ⟨e, hr⟩ <;> simp at hr

end IoAnsi

/-! ### Bytes as the characters a terminal acts on -/

theorem byteChar_utf8 (c : Char) (hc : c.toNat < 128) :
    (String.utf8EncodeChar c).map byteChar = [c] := by
  have e : String.utf8EncodeChar c = [UInt8.ofNat c.toNat] := by
    have h1 : c.toNat ≤ 127 := by omega
    simp only [String.utf8EncodeChar, Char.toNat_val, h1, if_true]
  rw [e]
  simp only [List.map_cons, List.map_nil, List.cons.injEq, and_true, byteChar]
  have e2 : (UInt8.ofNat c.toNat).toNat = c.toNat := by
    rw [UInt8.toNat_ofNat']
    omega
  rw [e2, Char.ofNat_toNat]

theorem byteChars_utf8 (s : Str) (hs : ∀ c ∈ s, c.toNat < 128) : (utf8 s).map byteChar = s := by
  induction s with
  | nil => rfl
  | cons c s ih =>
    rw [show c :: s = [c] ++ s from rfl, utf8_append, List.map_append,
      ih (fun d hd => hs d (by simp [hd]))]
    simp [utf8, byteChar_utf8 c (hs c (by simp))]

theorem ascii_ansiSwitch (c s : Style) : ∀ x ∈ ansiSwitch c s, x.toNat < 128 := by
  have hp : ∀ p, IsParams p → ∀ x ∈ p, x.toNat < 128 := by
    intro p hp x hx
    rcases hp x hx with h | rfl
    · simp only [Char.isDigit, Bool.and_eq_true, decide_eq_true_eq] at h
      have h2 : x.val ≤ 57 := h.2
      have : x.val.toNat ≤ 57 := h2
      have e : x.toNat = x.val.toNat := rfl
      omega
    · decide
  unfold ansiSwitch
  split
  · intro x hx
    revert x
    decide
  · have hpar := isParam_segments (s.diffFrom c)
    cases hs : Ansi.segments (s.diffFrom c) with
    | nil => simp [ansiSegs]
    | cons q qs =>
      rw [hs] at hpar
      intro x hx
      have e : ansiSegs (q :: qs) = str "\x1b[" ++ (q ++ ansiRest qs) ++ str "m" := by
        simp [ansiSegs]
      rw [e, List.mem_append, List.mem_append] at hx
      rcases hx with (hx | hx) | hx
      · revert x; decide
      · exact hp _ (isParams_segs q qs hpar) x hx
      · revert x; decide

theorem byteChars_ansiSwitch (c s : Style) : (ansiSwitchBytes c s).map byteChar = ansiSwitch c s :=
  byteChars_utf8 _ (ascii_ansiSwitch c s)

end Stylish
