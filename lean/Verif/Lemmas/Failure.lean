import Verif.Lemmas.Ansi
import Verif.Lemmas.Html
/-
Where a failing write can stop.
-/

namespace Stylish

open Spec

variable {S E A B α σ : Type}

/-- The action leaves `get` alone; on `Ok` it delivered `out`, otherwise a prefix of `out` but not all of
it. -/
def Stops (del : S → List α) (get : S → σ) (x : Act S E A) (out : List α) : Prop :=
  ∀ s r s', x s = (r, s') → get s' = get s ∧
    (((∃ a, r = .ok a) ∧ del s' = del s ++ out) ∨
     ((∀ a, r ≠ .ok a) ∧ ∃ p, p <+: out ∧ p ≠ out ∧ del s' = del s ++ p))

theorem Stops.pure {del : S → List α} {get : S → σ} (a : A) :
    Stops del get (pure a : Act S E A) [] := by
  intro s r s' h
  obtain ⟨rfl, rfl⟩ := Prod.mk.inj h
  exact ⟨rfl, Or.inl ⟨⟨a, rfl⟩, by simp⟩⟩

theorem Stops.bind {del : S → List α} {get : S → σ} {x : Act S E A} {f : A → Act S E B}
    {o1 o2 : List α} (hx : Stops del get x o1) (hf : ∀ a, Stops del get (f a) o2) :
    Stops del get (x >>= f) (o1 ++ o2) := by
  intro s r s' h
  rw [Act.bind_apply] at h
  rcases hxs : x s with ⟨rx, s1⟩
  rw [hxs] at h
  obtain ⟨hg, hx⟩ := hx s rx s1 hxs
  have key : (∃ p, p <+: o1 ∧ p ≠ o1 ∧ del s1 = del s ++ p) →
      ∃ p, p <+: o1 ++ o2 ∧ p ≠ o1 ++ o2 ∧ del s1 = del s ++ p := by
    rintro ⟨p, h1, h2, h3⟩
    refine ⟨p, h1.trans (List.prefix_append _ _), ?_, h3⟩
    rintro rfl
    have := h1.length_le
    simp only [List.length_append] at this
    have : o2 = [] := List.length_eq_zero_iff.1 (by omega)
    subst this
    simp at h2
  cases rx with
  | ok a =>
    rcases hx with ⟨-, hd⟩ | ⟨hn, -⟩
    · obtain ⟨hg', h'⟩ := hf a s1 r s' h
      refine ⟨hg'.trans hg, ?_⟩
      rcases h' with ⟨ha, hd'⟩ | ⟨ha, p, h1, h2, h3⟩
      · exact Or.inl ⟨ha, by rw [hd', hd, List.append_assoc]⟩
      · refine Or.inr ⟨ha, o1 ++ p, by simpa using h1, by simpa using h2, ?_⟩
        rw [h3, hd, List.append_assoc]
    · exact absurd rfl (hn a)
  | err e =>
    obtain ⟨rfl, rfl⟩ := Prod.mk.inj h
    rcases hx with ⟨⟨a, ha⟩, -⟩ | ⟨-, hp⟩
    · simp at ha
    · exact ⟨hg, Or.inr ⟨by simp, key hp⟩⟩
  | panic =>
    obtain ⟨rfl, rfl⟩ := Prod.mk.inj h
    rcases hx with ⟨⟨a, ha⟩, -⟩ | ⟨-, hp⟩
    · simp at ha
    · exact ⟨hg, Or.inr ⟨by simp, key hp⟩⟩
  | diverge =>
    obtain ⟨rfl, rfl⟩ := Prod.mk.inj h
    rcases hx with ⟨⟨a, ha⟩, -⟩ | ⟨-, hp⟩
    · simp at ha
    · exact ⟨hg, Or.inr ⟨by simp, key hp⟩⟩

theorem Stops.cast {del : S → List α} {get : S → σ} {x : Act S E A} {o1 o2 : List α}
    (h : Stops del get x o1) (ho : o1 = o2) : Stops del get x o2 := ho ▸ h

/-- A write that first switches the style and then writes text: where it can stop. -/
inductive Attempt (del : S → List α) (cur : S → Style) (sw : Style → Style → List α)
    (txt : List α) (st : Style) (r : Res E Unit) (s s' : S) : Prop
  | done : r = .ok () → cur s' = st → del s' = del s ++ (sw (cur s) st ++ txt) →
      Attempt del cur sw txt st r s s'
  | inSwitch (p : List α) : r ≠ .ok () → cur s' = cur s → p <+: sw (cur s) st →
      p ≠ sw (cur s) st → del s' = del s ++ p → Attempt del cur sw txt st r s s'
  | inText (p : List α) : r ≠ .ok () → cur s' = st → p <+: txt →
      del s' = del s ++ (sw (cur s) st ++ p) → Attempt del cur sw txt st r s s'

/-- Putting the two phases together. -/
theorem Attempt.of {del : S → List α} {cur : S → Style} {sw : Style → Style → List α}
    {txt : List α} {st : Style} {switch setCur body : Act S E Unit} {r : Res E Unit} {s s' : S}
    (hsw : Stops del cur switch (sw (cur s) st))
    (hset : ∀ a, ∃ b, setCur a = (.ok (), b) ∧ cur b = st ∧ del b = del a)
    (hbody : Emits del cur body txt id)
    (hcur : ∀ a, cur (body a).2 = cur a)
    (h : (switch >>= fun _ => setCur >>= fun _ => body) s = (r, s')) :
    Attempt del cur sw txt st r s s' := by
  rw [Act.bind_apply] at h
  rcases hs : switch s with ⟨r1, s1⟩
  rw [hs] at h
  obtain ⟨hg, hx⟩ := hsw s r1 s1 hs
  cases r1 with
  | ok u =>
    rcases hx with ⟨-, hd⟩ | ⟨hn, -⟩
    · obtain ⟨b, hb, hb1, hb2⟩ := hset s1
      have h : (setCur >>= fun _ => body) s1 = (r, s') := h
      rw [Act.bind_apply, hb] at h
      have h : body b = (r, s') := h
      have he := hbody b
      have hc := hcur b
      rw [h] at he hc
      have hc : cur s' = cur b := hc
      cases r with
      | ok u =>
        refine .done rfl (hc.trans hb1) ?_
        rw [he.1, hb2, hd, List.append_assoc]
      | err e =>
        obtain ⟨p, h1, h2⟩ := he
        exact .inText p (by simp) (hc.trans hb1) h1 (by rw [h2, hb2, hd, List.append_assoc])
      | panic =>
        obtain ⟨p, h1, h2⟩ := he
        exact .inText p (by simp) (hc.trans hb1) h1 (by rw [h2, hb2, hd, List.append_assoc])
      | diverge =>
        obtain ⟨p, h1, h2⟩ := he
        exact .inText p (by simp) (hc.trans hb1) h1 (by rw [h2, hb2, hd, List.append_assoc])
    · exact absurd rfl (hn u)
  | err e =>
    obtain ⟨rfl, rfl⟩ := Prod.mk.inj h
    rcases hx with ⟨⟨a, ha⟩, -⟩ | ⟨-, p, h1, h2, h3⟩
    · simp at ha
    · exact .inSwitch p (by simp) hg h1 h2 h3
  | panic =>
    obtain ⟨rfl, rfl⟩ := Prod.mk.inj h
    rcases hx with ⟨⟨a, ha⟩, -⟩ | ⟨-, p, h1, h2, h3⟩
    · simp at ha
    · exact .inSwitch p (by simp) hg h1 h2 h3
  | diverge =>
    obtain ⟨rfl, rfl⟩ := Prod.mk.inj h
    rcases hx with ⟨⟨a, ha⟩, -⟩ | ⟨-, p, h1, h2, h3⟩
    · simp at ha
    · exact .inSwitch p (by simp) hg h1 h2 h3

/-! ### Ansi -/

/-- The sink never reports a failure for a string that it took completely. -/
def HonestSink {T : Type} [FmtWrite T] (k : FmtSink T) : Prop :=
  ∀ (s : Str) (t t' : T) (r : Res FmtError Unit), FmtWrite.writeStr s t = (r, t') → r ≠ .ok () →
    s ≠ [] → k.delivered t' ≠ k.delivered t ++ s

section
variable {T : Type} [FmtWrite T] {k : FmtSink T}

namespace Ansi

theorem put_stops (hk : HonestSink k) (s : Str) (hs : s ≠ []) :
    Stops (del k) current (put (T := T) s) s := by
  intro a r a' h
  simp only [put, onInner] at h
  rcases hw : FmtWrite.writeStr s a.inner with ⟨rr, t⟩
  rw [hw] at h
  obtain ⟨rfl, rfl⟩ := Prod.mk.inj h
  refine ⟨rfl, ?_⟩
  by_cases hr : rr = .ok ()
  · subst hr
    exact Or.inl ⟨⟨(), rfl⟩, k.ok _ _ _ hw⟩
  · obtain ⟨p, h1, h2⟩ := k.notOk _ _ _ _ hw hr
    refine Or.inr ⟨fun _ => hr, p, h1, ?_, h2⟩
    rintro rfl
    exact hk _ _ _ _ hw hr hs h2

theorem putRest_stops (hk : HonestSink k) (l : List Str) (hl : ∀ s ∈ l, s ≠ []) :
    Stops (del k) current (putRest (T := T) l) (ansiRest l) := by
  induction l with
  | nil => exact Stops.pure _
  | cons x l ih =>
    exact ((put_stops hk _ (by simp [str])).bind fun _ => (put_stops hk _ (hl x (by simp))).bind
      fun _ => ih fun s h => hl s (by simp [h])).cast (by simp [ansiRest, str])

theorem putSegments_stops (hk : HonestSink k) (l : List Str) (hl : ∀ s ∈ l, s ≠ []) :
    Stops (del k) current (putSegments (T := T) l) (ansiSegs l) := by
  cases l with
  | nil => exact Stops.pure _
  | cons x l =>
    exact ((put_stops hk _ (by simp [str])).bind fun _ => (put_stops hk _ (hl x (by simp))).bind fun _ =>
      (putRest_stops hk _ fun s h => hl s (by simp [h])).bind fun _ =>
      put_stops hk _ (by simp [str])).cast (by simp [ansiSegs])

theorem segments_ne (d : StyleDiff) : ∀ s ∈ segments d, s ≠ [] := by
  have h1 : ∀ c, str (AnsiUtil.foreground c) ≠ [] := by intro c; cases c <;> decide
  have h2 : ∀ c, str (AnsiUtil.background c) ≠ [] := by intro c; cases c <;> decide
  have h3 : ∀ c, str (AnsiUtil.intensity c) ≠ [] := by intro c; cases c <;> decide
  intro s hs
  simp only [segments, List.mem_filterMap, List.mem_cons, List.not_mem_nil, or_false] at hs
  obtain ⟨o, ho, e⟩ := hs
  simp only [id] at e
  subst e
  rcases ho with ho | ho | ho <;> simp only [eq_comm (a := some s), Option.map_eq_some_iff] at ho <;>
    obtain ⟨c, -, rfl⟩ := ho
  · exact h1 c
  · exact h2 c
  · exact h3 c

theorem switchStyle_stops (hk : HonestSink k) (c s : Style) :
    Stops (del k) current (switchStyle (T := T) c s) (ansiSwitch c s) := by
  unfold switchStyle ansiSwitch
  split
  · exact put_stops hk _ (by decide)
  · exact putSegments_stops hk _ (segments_ne _)

theorem attempt (hk : HonestSink k) (s : Str) (hs : s ≠ []) (st : Style) (a a' : Ansi T)
    (r : Res FmtError Unit) (h : Write.writeStr s st a = (r, a')) :
    Attempt (del k) current ansiSwitch s st r a a' := by
  have hne : s.isEmpty = false := by cases s <;> simp_all
  have h : writeStr s st a = (r, a') := h
  unfold writeStr at h
  rw [hne] at h
  have h : (switchStyle a.current st >>= fun _ => setCurrent st >>= fun _ =>
      (put s >>= fun _ => pure ())) a = (r, a') := h
  refine Attempt.of (switchStyle_stops hk _ _) (setCur := setCurrent st)
    (fun a => ⟨⟨a.inner, st⟩, rfl, rfl, rfl⟩) (((put_emits k s).bind fun _ => Emits.pure ()).cast (by simp) (fun _ => rfl)) ?_ h
  intro a
  have : (put s >>= fun _ => pure ()) a = put s a := by
    rw [Act.bind_apply]
    rcases put s a with ⟨_ | _ | _ | _, b⟩ <;> rfl
  rw [this]
  rfl

end Ansi

/-- A proper, non-empty part of an escape sequence leaves the terminal waiting for the rest. -/
theorem feed_part (kind : TermKind) (a : Attrs) (scr : List (Char × Attrs)) (cur st : Style) (p : Str)
    (hp : p <+: ansiSwitch cur st) (hne : p ≠ ansiSwitch cur st) (hp0 : p ≠ []) :
    (Terminal.feed kind ⟨.ground, a, scr⟩ p).mode ≠ .ground := by
  have key : ∀ s, IsParams s → p <+: str "\x1b[" ++ s ++ str "m" → p ≠ str "\x1b[" ++ s ++ str "m" →
      (Terminal.feed kind ⟨.ground, a, scr⟩ p).mode ≠ .ground := by
    intro s hs hp hne
    obtain ⟨q, hq⟩ := hp
    have hq0 : q ≠ [] := by rintro rfl; rw [List.append_nil] at hq; exact hne hq
    match p, hp0 with
    | [c], _ =>
      have hq : c :: q = '\x1b' :: '[' :: (s ++ ['m']) := by simpa [str] using hq
      have hc : c = ESC := (List.cons.inj hq).1
      subst hc
      simp [Terminal.feed, Terminal.step]
    | c :: d :: p, _ =>
      have hq' : c :: d :: (p ++ q) = '\x1b' :: '[' :: (s ++ ['m']) := by simpa [str] using hq
      clear hq
      simp only [List.cons.injEq] at hq'
      obtain ⟨rfl, rfl, hq⟩ := hq'
      have hp : p <+: s := by
        have hx : q.dropLast ++ [q.getLast hq0] = q := List.dropLast_concat_getLast hq0
        rw [← hx, ← List.append_assoc] at hq
        have := List.append_inj_left' hq (by simp)
        exact ⟨_, this⟩
      have e : Terminal.feed kind ⟨.ground, a, scr⟩ ('\x1b' :: '[' :: p) =
          Terminal.feed kind ⟨.csi [], a, scr⟩ p := by
        simp [Terminal.feed, Terminal.step, ESC]
      rw [e, feed_params]
      · simp
      · exact fun c hc => hs c (hp.subset hc)
  unfold ansiSwitch at hp hne
  split at hp
  · rename_i hc
    rw [if_pos hc] at hne
    have e : Ansi.resetSeq = str "\x1b[" ++ ['0'] ++ str "m" := by decide
    rw [e] at hp hne
    exact key ['0'] (by simp [IsParams, Char.isDigit]) hp hne
  · rename_i hc
    rw [if_neg hc] at hne
    have hpar := isParam_segments (st.diffFrom cur)
    cases hs : Ansi.segments (st.diffFrom cur) with
    | nil =>
      rw [hs] at hp
      simp [ansiSegs] at hp
      exact absurd hp hp0
    | cons q qs =>
      rw [hs] at hp hne hpar
      have e : ansiSegs (q :: qs) = str "\x1b[" ++ (q ++ ansiRest qs) ++ str "m" := by
        simp [ansiSegs]
      rw [e] at hp hne
      exact key _ (isParams_segs q qs hpar) hp hne

theorem feed_texts (kind : TermKind) (st : Style) (scr : List (Char × Attrs)) (s : Str)
    (hs : ESC ∉ s) : Terminal.feed kind ⟨.ground, Attrs.ofStyle st, scr⟩ s =
      ⟨.ground, Attrs.ofStyle st, scr ++ look (paint s st)⟩ := by
  induction s generalizing scr with
  | nil => simp [Terminal.feed, look, paint]
  | cons c s ih =>
    have hc : c ≠ ESC := by rintro rfl; simp at hs
    have e : c :: s = [c] ++ s := rfl
    rw [e, feed_append, step_text kind _ _ c hc, ih _ (by simp at hs; exact hs.2)]
    simp [look, paint]

end

end Stylish
