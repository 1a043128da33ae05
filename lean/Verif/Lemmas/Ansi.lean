import Verif.Lemmas.Api
import Verif.Spec.Terminal
/-
The escape sequences of the ANSI writer on the specification terminal.
-/

namespace Stylish

open Spec

/-- A parameter string: digits only. -/
def IsParam (p : Str) : Prop := ∀ c ∈ p, c.isDigit = true

theorem isParam_foreground (c : Color) : IsParam (str (AnsiUtil.foreground c)) := by
  unfold IsParam; cases c <;> decide

theorem isParam_background (c : Color) : IsParam (str (AnsiUtil.background c)) := by
  unfold IsParam; cases c <;> decide

theorem isParam_intensity (i : Intensity) : IsParam (str (AnsiUtil.intensity i)) := by
  unfold IsParam; cases i <;> decide

theorem isParam_segments (d : StyleDiff) : ∀ p ∈ Ansi.segments d, IsParam p := by
  obtain ⟨f, b, i⟩ := d
  intro p hp
  simp only [Ansi.segments, List.mem_filterMap, List.mem_cons, id] at hp
  obtain ⟨o, ho, hp⟩ := hp
  subst hp
  simp only [List.not_mem_nil, or_false] at ho
  rcases ho with h | h | h
  · cases f with
    | none => simp at h
    | some c => simp at h; subst h; exact isParam_foreground c
  · cases b with
    | none => simp at h
    | some c => simp at h; subst h; exact isParam_background c
  · cases i with
    | none => simp at h
    | some c => simp at h; subst h; exact isParam_intensity c

theorem digit_ne {c d : Char} (h : c.isDigit = true) (hd : d.isDigit = false) : c ≠ d := by
  rintro rfl; simp [h] at hd

theorem splitParams_param (p : Str) (hp : IsParam p) : splitParams p = [p] := by
  induction p with
  | nil => rfl
  | cons c p ih =>
    have hc : c ≠ ';' := digit_ne (hp c (by simp)) (by decide)
    rw [splitParams, if_neg hc, ih (fun d hd => hp d (by simp [hd]))]

theorem splitParams_cons (p rest : Str) (hp : IsParam p) :
    splitParams (p ++ ';' :: rest) = p :: splitParams rest := by
  induction p with
  | nil => simp [splitParams]
  | cons c p ih =>
    have hc : c ≠ ';' := digit_ne (hp c (by simp)) (by decide)
    rw [List.cons_append, splitParams, if_neg hc, ih (fun d hd => hp d (by simp [hd]))]

theorem splitParams_segs (p : Str) (ps : List Str) (h : ∀ q ∈ p :: ps, IsParam q) :
    splitParams (p ++ ansiRest ps) = p :: ps := by
  induction ps generalizing p with
  | nil => simpa [ansiRest] using splitParams_param p (h p (by simp))
  | cons q ps ih =>
    have e : ansiRest (q :: ps) = ';' :: (q ++ ansiRest ps) := by simp [ansiRest]
    rw [e, splitParams_cons _ _ (h p (by simp)), ih q (fun r hr => h r (List.mem_cons_of_mem _ hr))]

/-- Characters of a parameter string with separators. -/
def IsParams (s : Str) : Prop := ∀ c ∈ s, c.isDigit = true ∨ c = ';'

theorem isParams_segs (p : Str) (ps : List Str) (h : ∀ q ∈ p :: ps, IsParam q) :
    IsParams (p ++ ansiRest ps) := by
  intro c hc
  simp only [ansiRest, List.mem_append, List.mem_flatMap, List.mem_cons] at hc
  rcases hc with hc | ⟨q, hq, rfl | hc⟩
  · exact Or.inl (h p (by simp) c hc)
  · exact Or.inr rfl
  · exact Or.inl (h q (by simp [hq]) c hc)

theorem feed_append (kind : TermKind) (t : Terminal) (s u : Str) :
    t.feed kind (s ++ u) = (t.feed kind s).feed kind u := by
  simp [Terminal.feed]

theorem feed_params (kind : TermKind) (a : Attrs) (scr : List (Char × Attrs)) (ps s : Str)
    (hs : IsParams s) :
    Terminal.feed kind ⟨.csi ps, a, scr⟩ s = ⟨.csi (ps ++ s), a, scr⟩ := by
  induction s generalizing ps with
  | nil => simp [Terminal.feed]
  | cons c s ih =>
    have hc := hs c (by simp)
    have h1 : c ≠ ESC := by
      rcases hc with hc | rfl
      · exact digit_ne hc (by decide)
      · decide
    have : Terminal.step kind ⟨.csi ps, a, scr⟩ c = ⟨.csi (ps ++ [c]), a, scr⟩ := by
      simp [Terminal.step, h1, hc]
    simp only [Terminal.feed, List.foldl_cons, this]
    have := ih (ps ++ [c]) (fun d hd => hs d (by simp [hd]))
    simpa [Terminal.feed] using this

/-- A whole SGR sequence, in ground state. -/
theorem feed_sgr (kind : TermKind) (a : Attrs) (scr : List (Char × Attrs)) (s : Str)
    (hs : IsParams s) :
    Terminal.feed kind ⟨.ground, a, scr⟩ (str "\x1b[" ++ s ++ str "m") =
      ⟨.ground, sgr kind s a, scr⟩ := by
  rw [feed_append, feed_append]
  have h1 : Terminal.feed kind ⟨.ground, a, scr⟩ (str "\x1b[") = ⟨.csi [], a, scr⟩ := by
    simp [Terminal.feed, Terminal.step, str, ESC]
  rw [h1, feed_params kind a scr [] s hs]
  simp [Terminal.feed, Terminal.step, str, ESC]

theorem feed_segs (kind : TermKind) (a : Attrs) (scr : List (Char × Attrs)) (segs : List Str)
    (h : ∀ q ∈ segs, IsParam q) :
    Terminal.feed kind ⟨.ground, a, scr⟩ (ansiSegs segs) =
      ⟨.ground, segs.foldl (fun a p => sgrCode kind (paramVal p) a) a, scr⟩ := by
  cases segs with
  | nil => rfl
  | cons p ps =>
    have e : ansiSegs (p :: ps) = str "\x1b[" ++ (p ++ ansiRest ps) ++ str "m" := by
      simp [ansiSegs]
    rw [e, feed_sgr kind a scr _ (isParams_segs p ps h), sgr, splitParams_segs p ps h]

theorem sgrCode_foreground (kind : TermKind) (c : Color) (a : Attrs) :
    sgrCode kind (paramVal (str (AnsiUtil.foreground c))) a = { a with fg := c } := by
  cases c <;> rfl

theorem sgrCode_background (kind : TermKind) (c : Color) (a : Attrs) :
    sgrCode kind (paramVal (str (AnsiUtil.background c))) a = { a with bg := c } := by
  cases c <;> rfl

/-- Setting an intensity does the right thing if the terminal is exclusive or the transition is not between
bold and faint. -/
theorem sgrCode_intensity (kind : TermKind) (i j : Intensity) (fg bg : Color)
    (h : kind = .exclusive ∨ ¬ ((j = .Bold ∧ i = .Faint) ∨ (j = .Faint ∧ i = .Bold))) :
    sgrCode kind (paramVal (str (AnsiUtil.intensity i))) ⟨fg, bg, j = .Bold, j = .Faint⟩ =
      ⟨fg, bg, i = .Bold, i = .Faint⟩ := by
  cases kind <;> cases i <;> cases j <;> first | rfl | simp at h

/-- Transition between bold and faint. -/
def BoldFaint (a b : Style) : Prop :=
  (a.intensity = .Bold ∧ b.intensity = .Faint) ∨ (a.intensity = .Faint ∧ b.intensity = .Bold)

theorem sgr_zero (kind : TermKind) (a : Attrs) : sgr kind ['0'] a = Attrs.initial := rfl

theorem feed_switch (kind : TermKind) (cur st : Style) (scr : List (Char × Attrs))
    (h : kind = .exclusive ∨ ¬ BoldFaint cur st) :
    Terminal.feed kind ⟨.ground, Attrs.ofStyle cur, scr⟩ (ansiSwitch cur st) =
      ⟨.ground, Attrs.ofStyle st, scr⟩ := by
  unfold ansiSwitch
  split
  · rename_i hc
    have e : Ansi.resetSeq = str "\x1b[" ++ ['0'] ++ str "m" := by decide
    rw [e, feed_sgr kind _ scr _ (by simp [IsParams, Char.isDigit]), sgr_zero, hc.2]
    rfl
  · rw [feed_segs kind _ scr _ (isParam_segments _)]
    congr 1
    obtain ⟨cf, cb, ci⟩ := cur
    obtain ⟨sf, sb, si⟩ := st
    have hi := sgrCode_intensity kind si ci
    simp only [BoldFaint] at h
    have hi' := fun fg bg => hi fg bg h
    simp only [Ansi.segments, Style.diffFrom, diffField, Attrs.ofStyle]
    by_cases h1 : cf = sf <;> by_cases h2 : cb = sb <;> by_cases h3 : ci = si <;>
      simp [h1, h2, h3, sgrCode_foreground, sgrCode_background] <;>
      first
        | exact hi' _ _
        | skip

end Stylish

namespace Stylish

open Spec

/-- No two neighbouring characters go directly between bold and faint, starting from style `cur`. -/
def NoBoldFaintFrom : Style → Styled → Prop
  | _, [] => True
  | cur, (_, st) :: rest => ¬ BoldFaint cur st ∧ NoBoldFaintFrom st rest

/-- How styled text should look. -/
def look (t : Styled) : List (Char × Attrs) := t.map (fun x => (x.1, Attrs.ofStyle x.2))

theorem step_text (kind : TermKind) (a : Attrs) (scr : List (Char × Attrs)) (c : Char) (h : c ≠ ESC) :
    Terminal.feed kind ⟨.ground, a, scr⟩ [c] = ⟨.ground, a, scr ++ [(c, a)]⟩ := by
  simp [Terminal.feed, Terminal.step, h]

theorem feed_render (kind : TermKind) (cur : Style) (t : Styled) (scr : List (Char × Attrs))
    (hesc : ∀ x ∈ t, x.1 ≠ ESC) (h : kind = .exclusive ∨ NoBoldFaintFrom cur t) :
    Terminal.feed kind ⟨.ground, Attrs.ofStyle cur, scr⟩ (renderWith ansiSwitch plainEnc cur t) =
      ⟨.ground, Attrs.ofStyle (lastStyle cur t), scr ++ look t⟩ := by
  induction t generalizing cur scr with
  | nil => simp [renderWith, Terminal.feed, look, lastStyle]
  | cons x t ih =>
    obtain ⟨c, st⟩ := x
    have h1 : kind = .exclusive ∨ ¬ BoldFaint cur st := h.imp id And.left
    have h2 : kind = .exclusive ∨ NoBoldFaintFrom st t := h.imp id And.right
    rw [renderWith, feed_append, feed_append, feed_switch kind cur st scr h1, plainEnc,
      step_text kind _ _ c (hesc (c, st) (by simp)), ih st _ (fun y hy => hesc y (by simp [hy])) h2]
    simp [look, lastStyle]

theorem screen_grows (kind : TermKind) (t : Terminal) (s : Str) :
    ∃ more, (t.feed kind s).screen = t.screen ++ more := by
  induction s generalizing t with
  | nil => exact ⟨[], by simp [Terminal.feed]⟩
  | cons c s ih =>
    obtain ⟨more, h⟩ := ih (t.step kind c)
    have : ∃ m, (t.step kind c).screen = t.screen ++ m := by
      unfold Terminal.step
      split
      · split
        · exact ⟨[], by simp⟩
        · exact ⟨[(c, t.attrs)], rfl⟩
      · split
        · exact ⟨[], by simp⟩
        · split <;> exact ⟨[], by simp⟩
      · repeat' split
        all_goals exact ⟨[], by simp⟩
    obtain ⟨m, hm⟩ := this
    exact ⟨m ++ more, by rw [hm] at h; simpa [Terminal.feed] using h⟩

theorem feed_switch_bad (cur st : Style) (scr : List (Char × Attrs)) (h : BoldFaint cur st) :
    Terminal.feed .independent ⟨.ground, Attrs.ofStyle cur, scr⟩ (ansiSwitch cur st) =
      ⟨.ground, ⟨st.foreground, st.background, true, true⟩, scr⟩ := by
  unfold ansiSwitch
  obtain ⟨cf, cb, ci⟩ := cur
  obtain ⟨sf, sb, si⟩ := st
  simp only [BoldFaint] at h
  have hnd : ¬ ((⟨cf, cb, ci⟩ : Style) ≠ ⟨sf, sb, si⟩ ∧ (⟨sf, sb, si⟩ : Style) = Style.default) := by
    rintro ⟨-, he⟩
    have : si = .Normal := congrArg Style.intensity he
    subst this
    simp at h
  rw [if_neg hnd, feed_segs .independent _ scr _ (isParam_segments _)]
  congr 1
  simp only [Ansi.segments, Style.diffFrom, diffField, Attrs.ofStyle]
  have h3 : ci ≠ si := by rintro rfl; cases ci <;> simp at h
  have hi : ∀ fg bg, sgrCode .independent (paramVal (str (AnsiUtil.intensity si)))
      ⟨fg, bg, ci = .Bold, ci = .Faint⟩ = ⟨fg, bg, true, true⟩ := by
    intro fg bg
    cases ci <;> cases si <;> first | rfl | simp at h
  by_cases h1 : cf = sf <;> by_cases h2 : cb = sb <;>
    simp [h1, h2, h3, sgrCode_foreground, sgrCode_background] <;> exact hi _ _

theorem feed_render_iff (cur : Style) (t : Styled) (scr : List (Char × Attrs))
    (hesc : ∀ x ∈ t, x.1 ≠ ESC) (more : Str) :
    (∃ m, (Terminal.feed .independent ⟨.ground, Attrs.ofStyle cur, scr⟩
      (renderWith ansiSwitch plainEnc cur t ++ more)).screen = scr ++ look t ++ m) →
    NoBoldFaintFrom cur t := by
  induction t generalizing cur scr with
  | nil => intro _; trivial
  | cons x t ih =>
    obtain ⟨c, st⟩ := x
    rintro ⟨m, hm⟩
    by_cases hb : BoldFaint cur st
    · exfalso
      rw [renderWith, List.append_assoc, List.append_assoc, feed_append, feed_append,
        feed_switch_bad cur st scr hb, plainEnc,
        step_text .independent _ _ c (hesc (c, st) (by simp))] at hm
      obtain ⟨more', hmore⟩ := screen_grows .independent
        ⟨.ground, ⟨st.foreground, st.background, true, true⟩,
          scr ++ [(c, ⟨st.foreground, st.background, true, true⟩)]⟩
        (renderWith ansiSwitch plainEnc st t ++ more)
      rw [hmore] at hm
      simp [look, Attrs.ofStyle] at hm
      rcases hb with hb | hb <;> simp_all
    · refine ⟨hb, ih st (scr ++ [(c, Attrs.ofStyle st)]) (fun y hy => hesc y (by simp [hy])) ⟨m, ?_⟩⟩
      rw [renderWith, List.append_assoc, List.append_assoc, feed_append, feed_append,
        feed_switch .independent cur st scr (Or.inr hb), plainEnc,
        step_text .independent _ _ c (hesc (c, st) (by simp))] at hm
      simpa [look] using hm

/-- Whatever bold/faint mix-ups happened, the parser is in ground state and the default style is right. -/
theorem feed_switch_ground (kind : TermKind) (cur st : Style) (a : Attrs) (scr : List (Char × Attrs))
    (h : cur = Style.default → a = Attrs.initial) :
    ∃ a', Terminal.feed kind ⟨.ground, a, scr⟩ (ansiSwitch cur st) = ⟨.ground, a', scr⟩ ∧
      (st = Style.default → a' = Attrs.initial) := by
  unfold ansiSwitch
  split
  · have e : Ansi.resetSeq = str "\x1b[" ++ ['0'] ++ str "m" := by decide
    rw [e, feed_sgr kind _ scr _ (by simp [IsParams, Char.isDigit]), sgr_zero]
    exact ⟨_, rfl, fun _ => rfl⟩
  · rename_i hn
    rw [feed_segs kind _ scr _ (isParam_segments _)]
    refine ⟨_, rfl, fun hst => ?_⟩
    have hc : cur = st := by
      apply Classical.byContradiction
      intro hc
      exact hn ⟨hc, hst⟩
    subst hc
    simp [diffFrom_self, Ansi.segments, h hst]

theorem feed_render_ground (kind : TermKind) (cur : Style) (t : Styled) (a : Attrs)
    (scr : List (Char × Attrs)) (hesc : ∀ x ∈ t, x.1 ≠ ESC)
    (h : cur = Style.default → a = Attrs.initial) :
    ∃ a' scr', Terminal.feed kind ⟨.ground, a, scr⟩ (renderWith ansiSwitch plainEnc cur t) =
        ⟨.ground, a', scr'⟩ ∧ scr'.map Prod.fst = scr.map Prod.fst ++ text t ∧
      (lastStyle cur t = Style.default → a' = Attrs.initial) := by
  induction t generalizing cur a scr with
  | nil => exact ⟨a, scr, by simp [renderWith, Terminal.feed], by simp [text], h⟩
  | cons x t ih =>
    obtain ⟨c, st⟩ := x
    obtain ⟨a1, h1, h2⟩ := feed_switch_ground kind cur st a scr h
    rw [renderWith, feed_append, feed_append, h1, plainEnc, step_text kind _ _ c (hesc (c, st) (by simp))]
    obtain ⟨a', scr', e1, e2, e3⟩ := ih st a1 (scr ++ [(c, a1)]) (fun y hy => hesc y (by simp [hy])) h2
    exact ⟨a', scr', e1, by simpa [text] using e2, e3⟩

/-! ### Stripping -/

theorem strip_in_params (s rest : Str) (hs : IsParams s) :
    stripSgr.go true (s ++ rest) = stripSgr.go true rest := by
  induction s with
  | nil => rfl
  | cons c s ih =>
    have hc : c ≠ 'm' := by
      rcases hs c (by simp) with hc | rfl
      · exact digit_ne hc (by decide)
      · decide
    rw [List.cons_append, stripSgr.go, if_neg hc, ih (fun d hd => hs d (by simp [hd]))]

theorem strip_sgr (s rest : Str) (hs : IsParams s) :
    stripSgr.go false (str "\x1b[" ++ s ++ str "m" ++ rest) = stripSgr.go false rest := by
  have e : str "\x1b[" ++ s ++ str "m" ++ rest = ESC :: '[' :: (s ++ 'm' :: rest) := by
    simp [str, ESC]
  rw [e, stripSgr.go, if_pos rfl, stripSgr.go, if_neg (by decide), strip_in_params s _ hs,
    stripSgr.go, if_pos rfl]

theorem strip_switch (cur st : Style) (rest : Str) :
    stripSgr.go false (ansiSwitch cur st ++ rest) = stripSgr.go false rest := by
  unfold ansiSwitch
  split
  · have e : Ansi.resetSeq = str "\x1b[" ++ ['0'] ++ str "m" := by decide
    rw [e, strip_sgr _ _ (by simp [IsParams, Char.isDigit])]
  · have hseg := isParam_segments (st.diffFrom cur)
    cases hs : Ansi.segments (st.diffFrom cur) with
    | nil => rfl
    | cons p ps =>
      rw [hs] at hseg
      have e : ansiSegs (p :: ps) = str "\x1b[" ++ (p ++ ansiRest ps) ++ str "m" := by
        simp [ansiSegs]
      rw [e, strip_sgr _ _ (isParams_segs p ps hseg)]

theorem strip_render (cur : Style) (t : Styled) (rest : Str) (hesc : ∀ x ∈ t, x.1 ≠ ESC) :
    stripSgr.go false (renderWith ansiSwitch plainEnc cur t ++ rest) =
      text t ++ stripSgr.go false rest := by
  induction t generalizing cur with
  | nil => rfl
  | cons x t ih =>
    obtain ⟨c, st⟩ := x
    rw [renderWith, List.append_assoc, List.append_assoc, strip_switch]
    have e : plainEnc c ++ (renderWith ansiSwitch plainEnc st t ++ rest) =
        c :: (renderWith ansiSwitch plainEnc st t ++ rest) := rfl
    rw [e, stripSgr.go, if_neg (hesc (c, st) (by simp)), ih st (fun y hy => hesc y (by simp [hy]))]
    rfl

theorem strip_ansiRender (t : Styled) (hesc : ∀ x ∈ t, x.1 ≠ ESC) :
    stripSgr (ansiRender t) = text t := by
  show stripSgr.go false _ = _
  have h := strip_switch (lastStyle Style.default t) Style.default []
  rw [List.append_nil] at h
  rw [ansiRender, strip_render _ _ _ hesc, h]
  simp [stripSgr.go]

end Stylish
