import Verif.Lemmas.Api
import Verif.Spec.HtmlReader
/-
The HTML reader run on the HTML writer's output.
-/

namespace Stylish

open Spec HtmlReader

theorem lex_append (m : HtmlReader.Mode) (a b : Str) (ta : List Token) (h : lex m a = some ta) :
    lex m (a ++ b) = (lex .data b).map (ta ++ ·) := by
  fun_induction lex m a generalizing ta with
  | case1 => simp at h; subst h; simp
  | case2 => simp at h
  | case3 => simp at h
  | case4 cs ih => rw [List.cons_append, lex, if_pos rfl]; exact ih _ h
  | case5 cs hc ih => rw [List.cons_append, lex, if_neg hc, if_pos rfl]; exact ih _ h
  | case6 c cs hc hc' ih =>
    rw [List.cons_append, lex, if_neg hc, if_neg hc']
    simp only [Option.map_eq_some_iff] at h
    obtain ⟨t, ht, rfl⟩ := h
    rw [ih _ ht]
    simp [Function.comp_def]
  | case7 acc cs ih =>
    rw [List.cons_append, lex, if_pos rfl]
    simp only [Option.bind_eq_some_iff, Option.map_eq_some_iff] at h
    obtain ⟨u, hu, t, ht, rfl⟩ := h
    rw [ih _ ht, hu]
    simp [Function.comp_def]
  | case8 acc c cs hc ih => rw [List.cons_append, lex, if_neg hc]; exact ih _ h
  | case9 acc cs ih =>
    rw [List.cons_append, lex, if_pos rfl]
    simp only [Option.bind_eq_some_iff, Option.map_eq_some_iff] at h
    obtain ⟨u, hu, t, ht, rfl⟩ := h
    rw [ih _ ht, hu]
    simp [Function.comp_def]
  | case10 acc c cs hc ih => rw [List.cons_append, lex, if_neg hc]; exact ih _ h

theorem lex_append_some (m : HtmlReader.Mode) (a b : Str) (ta tb : List Token) (h : lex m a = some ta)
    (h' : lex .data b = some tb) : lex m (a ++ b) = some (ta ++ tb) := by
  rw [lex_append m a b ta h, h']; rfl

theorem lex_enc (c : Char) : lex .data (htmlEnc c) = some [.char c] := by
  unfold htmlEnc htmlEntity
  by_cases h1 : c = '<'; · subst h1; decide
  by_cases h2 : c = '>'; · subst h2; decide
  by_cases h3 : c = '&'; · subst h3; decide
  by_cases h4 : c = '"'; · subst h4; decide
  by_cases h5 : c = '\''; · subst h5; decide
  simp [h1, h2, h3, h4, h5, lex]

theorem lex_tag (acc s : Str) (hs : '>' ∉ s) :
    lex (.tag acc) (s ++ str ">") = (tag (acc ++ s)).map (fun t => [t]) := by
  induction s generalizing acc with
  | nil =>
    have e : lex (.tag acc) ([] ++ str ">") = (tag acc).bind fun t => (lex .data []).map (t :: ·) := rfl
    rw [e, List.append_nil]
    cases tag acc <;> rfl
  | cons c s ih =>
    have hc : c ≠ '>' := by rintro rfl; simp at hs
    rw [List.cons_append, lex, if_neg hc, ih _ (by simp at hs; exact hs.2)]
    simp

theorem after_append (p s : Str) : HtmlReader.after p (p ++ s) = some s := by
  induction p with
  | nil => rfl
  | cons c p ih => simp [HtmlReader.after, ih]

theorem tag_open (v : Str) (hv : legalValue v = true) : tag (str "span style=" ++ v) = some (.open v) := by
  unfold tag
  rw [if_neg, after_append]
  · simp [hv]
  · simp [str]

/-- A segment of a style attribute: no semicolon, legal characters. -/
def IsSeg (s : Str) : Prop := s ≠ [] ∧ ∀ c ∈ s, c ≠ ';' ∧ illegalInValue.contains c = false

instance (s : Str) : Decidable (IsSeg s) := by unfold IsSeg; infer_instance

theorem isSeg_foreground (c : Color) : IsSeg (str (HtmlUtil.foreground c)) := by cases c <;> decide
theorem isSeg_background (c : Color) : IsSeg (str (HtmlUtil.background c)) := by cases c <;> decide
theorem isSeg_intensity (i : Intensity) : IsSeg (str (HtmlUtil.intensity i)) := by cases i <;> decide

theorem isSeg_segments (d : StyleDiff) : ∀ p ∈ Html.segments d, IsSeg p := by
  obtain ⟨f, b, i⟩ := d
  cases f <;> cases b <;> cases i <;>
    simp [Html.segments, isSeg_foreground, isSeg_background, isSeg_intensity]

/-- The value of the style attribute made of the segments. -/
def htmlValue : List Str → Str
  | [] => []
  | seg :: rest => seg ++ htmlRest rest

theorem splitSemi_seg (p : Str) (hp : ∀ c ∈ p, c ≠ ';') : splitSemi p = [p] := by
  induction p with
  | nil => rfl
  | cons c p ih =>
    rw [splitSemi, if_neg (hp c (by simp)), ih (fun d hd => hp d (by simp [hd]))]

theorem splitSemi_cons (p rest : Str) (hp : ∀ c ∈ p, c ≠ ';') :
    splitSemi (p ++ ';' :: rest) = p :: splitSemi rest := by
  induction p with
  | nil => simp [splitSemi]
  | cons c p ih =>
    rw [List.cons_append, splitSemi, if_neg (hp c (by simp)), ih (fun d hd => hp d (by simp [hd]))]

theorem splitSemi_value (segs : List Str) (hne : segs ≠ []) (h : ∀ q ∈ segs, IsSeg q) :
    splitSemi (htmlValue segs) = segs := by
  cases segs with
  | nil => exact absurd rfl hne
  | cons p ps =>
    simp only [htmlValue]
    clear hne
    induction ps generalizing p with
    | nil => simpa [htmlRest] using splitSemi_seg p (fun c hc => ((h p (by simp)).2 c hc).1)
    | cons q ps ih =>
      have e : htmlRest (q :: ps) = ';' :: (q ++ htmlRest ps) := by simp [htmlRest]
      rw [e, splitSemi_cons _ _ (fun c hc => ((h p (by simp)).2 c hc).1),
        ih q (fun r hr => h r (List.mem_cons_of_mem _ hr))]

theorem legalValue_value (segs : List Str) (hne : segs ≠ []) (h : ∀ q ∈ segs, IsSeg q) :
    legalValue (htmlValue segs) = true := by
  cases segs with
  | nil => exact absurd rfl hne
  | cons p ps =>
    have hall : ∀ c ∈ p ++ htmlRest ps, illegalInValue.contains c = false := by
      intro c hc
      simp only [htmlRest, List.mem_append, List.mem_flatMap, List.mem_cons] at hc
      rcases hc with hc | ⟨q, hq, rfl | hc⟩
      · exact ((h p (by simp)).2 c hc).2
      · decide
      · exact ((h q (by simp [hq])).2 c hc).2
    have hp := (h p (by simp)).1
    simp only [legalValue, htmlValue, Bool.and_eq_true, Bool.not_eq_true', List.all_eq_true]
    refine ⟨?_, hall⟩
    cases p with
    | nil => exact absurd rfl hp
    | cons => rfl

theorem declaration_foreground (c : Color) (hc : c ≠ .Default) (st : Style) :
    declaration (str (HtmlUtil.foreground c)) st = some { st with foreground := c } := by
  cases c <;> first | rfl | exact absurd rfl hc

theorem declaration_background (c : Color) (hc : c ≠ .Default) (st : Style) :
    declaration (str (HtmlUtil.background c)) st = some { st with background := c } := by
  cases c <;> first | rfl | exact absurd rfl hc

theorem declaration_intensity (i : Intensity) (hi : i ≠ .Normal) (st : Style) :
    declaration (str (HtmlUtil.intensity i)) st = some { st with intensity := i } := by
  cases i <;> first | rfl | exact absurd rfl hi

theorem segments_ne_nil (st : Style) (h : st ≠ Style.default) :
    Html.segments (st.diffFrom Style.default) ≠ [] := by
  obtain ⟨f, b, i⟩ := st
  intro e
  apply h
  have d1 : (Inhabited.default : Color) = .Default := rfl
  have d3 : (Inhabited.default : Intensity) = .Normal := rfl
  simp only [Html.segments, Style.diffFrom, diffField, Style.default, d1, d3] at e ⊢
  by_cases e1 : Color.Default = f
  · by_cases e2 : Color.Default = b
    · by_cases e3 : Intensity.Normal = i
      · subst e1 e2 e3; rfl
      · rw [if_neg e3] at e; simp at e
    · rw [if_neg e2] at e; simp at e
  · rw [if_neg e1] at e; simp at e

/-- The style attribute of a style. -/
def valueOf (st : Style) : Str := htmlValue (Html.segments (st.diffFrom Style.default))

theorem styleAttr_valueOf (st : Style) (h : st ≠ Style.default) :
    styleAttr (valueOf st) Style.default = some st := by
  unfold styleAttr valueOf
  rw [splitSemi_value _ (segments_ne_nil st h) (isSeg_segments _)]
  obtain ⟨f, b, i⟩ := st
  have d1 : (Inhabited.default : Color) = .Default := rfl
  have d3 : (Inhabited.default : Intensity) = .Normal := rfl
  simp only [Html.segments, Style.diffFrom, diffField, Style.default, d1, d3]
  have c1 : ∀ f, (if Color.Default = f then none else some f) =
      if f = Color.Default then none else some f := by intro f; cases f <;> rfl
  have c3 : ∀ i, (if Intensity.Normal = i then none else some i) =
      if i = Intensity.Normal then none else some i := by intro i; cases i <;> rfl
  rw [c1, c1, c3]
  clear h c1 c3
  by_cases e1 : f = .Default <;> by_cases e2 : b = .Default <;> by_cases e3 : i = .Normal <;>
    simp only [e1, e2, e3, if_true, if_false, Option.map_none, Option.map_some, List.filterMap_cons,
      List.filterMap_nil, id, declarations, declaration_foreground, declaration_background,
      declaration_intensity, Option.bind_some, ne_eq, not_false_eq_true]

theorem legalValue_valueOf (st : Style) (h : st ≠ Style.default) : legalValue (valueOf st) = true :=
  legalValue_value _ (segments_ne_nil st h) (isSeg_segments _)

theorem not_mem_of_legal (v : Str) (h : legalValue v = true) : '>' ∉ v := by
  intro hm
  simp only [legalValue, Bool.and_eq_true, List.all_eq_true] at h
  have := h.2 _ hm
  exact absurd this (by decide)

/-- The markup from one style to another, spelled out. -/
theorem htmlSwitch_eq (cur st : Style) : htmlSwitch cur st =
    if cur = st then [] else htmlClose cur ++
      (if st = Style.default then [] else str "<span style=" ++ valueOf st ++ str ">") := by
  by_cases h : cur = st
  · subst h; rw [htmlSwitch_self, if_pos rfl]
  · rw [if_neg h]
    unfold htmlSwitch
    by_cases h2 : st = Style.default
    · simp [h2]
    · rw [if_neg h2, if_pos (Ne.symm h), if_neg h2, valueOf]
      cases hs : Html.segments (st.diffFrom Style.default) with
      | nil => exact absurd hs (segments_ne_nil st h2)
      | cons p ps => simp [htmlSegs, htmlValue]

/-- The tokens that close the open span. -/
def closeTokens (cur : Style) : List Token := if cur = Style.default then [] else [.close]

/-- The tokens that open a span. -/
def openTokens (st : Style) : List Token := if st = Style.default then [] else [.open (valueOf st)]

/-- The tokens from one style to another. -/
def switchTokens (cur st : Style) : List Token :=
  if cur = st then [] else closeTokens cur ++ openTokens st

theorem lex_close (cur : Style) : lex .data (htmlClose cur) = some (closeTokens cur) := by
  unfold htmlClose closeTokens
  by_cases h : cur = Style.default
  · simp [h, lex]
  · simp only [ne_eq, h, not_false_eq_true, if_true, if_false]; decide

theorem lex_open (st : Style) (h : st ≠ Style.default) :
    lex .data (str "<span style=" ++ valueOf st ++ str ">") = some [.open (valueOf st)] := by
  have hv := legalValue_valueOf st h
  have e : str "<span style=" ++ valueOf st ++ str ">" =
      '<' :: ((str "span style=" ++ valueOf st) ++ str ">") := by simp [str]
  rw [e, lex, if_pos rfl, lex_tag, List.nil_append, tag_open _ hv]
  · rfl
  · intro hm
    rcases List.mem_append.1 hm with hm | hm
    · exact absurd hm (by decide)
    · exact not_mem_of_legal _ hv hm

theorem lex_switch (cur st : Style) : lex .data (htmlSwitch cur st) = some (switchTokens cur st) := by
  rw [htmlSwitch_eq, switchTokens]
  by_cases h : cur = st
  · simp [h, lex]
  · rw [if_neg h, if_neg h]
    refine lex_append_some _ _ _ _ _ (lex_close cur) ?_
    unfold openTokens
    by_cases h2 : st = Style.default
    · simp [h2, lex]
    · rw [if_neg h2, if_neg h2]; exact lex_open st h2

/-- The tokens of rendered text. -/
def renderTokens : Style → Styled → List Token
  | _, [] => []
  | cur, (c, st) :: rest => switchTokens cur st ++ (.char c :: renderTokens st rest)

theorem lex_render (cur : Style) (t : Styled) :
    lex .data (renderWith htmlSwitch htmlEnc cur t) = some (renderTokens cur t) := by
  induction t generalizing cur with
  | nil => rfl
  | cons x t ih =>
    obtain ⟨c, st⟩ := x
    rw [renderWith, renderTokens, List.append_assoc]
    exact lex_append_some _ _ _ _ _ (lex_switch cur st)
      (lex_append_some _ _ _ _ _ (lex_enc c) (ih st))

/-- The stack of open spans when the current style is `cur`. -/
def stackOf (cur : Style) : List Style := if cur = Style.default then [] else [cur]

theorem page_switch (cur st : Style) (ts : List Token) :
    page (stackOf cur) (switchTokens cur st ++ ts) = page (stackOf st) ts := by
  unfold switchTokens
  by_cases h : cur = st
  · subst h; simp
  · rw [if_neg h, List.append_assoc]
    have h1 : ∀ us, page (stackOf cur) (closeTokens cur ++ us) = page [] us := by
      intro us
      unfold stackOf closeTokens
      by_cases h : cur = Style.default <;> simp [h, page]
    rw [h1]
    unfold openTokens stackOf
    by_cases h2 : st = Style.default
    · simp [h2]
    · have := styleAttr_valueOf st h2
      simp only [h2, if_false, List.cons_append, List.nil_append, page, List.headD_nil]
      have e : (⟨.Default, .Default, .Normal⟩ : Style) = Style.default := rfl
      rw [e, this]
      rfl

theorem stackOf_head (st : Style) : (stackOf st).headD ⟨.Default, .Default, .Normal⟩ = st := by
  unfold stackOf
  split
  · simp_all; rfl
  · rfl

theorem page_render (cur : Style) (t : Styled) (ts : List Token) :
    page (stackOf cur) (renderTokens cur t ++ ts) =
      (page (stackOf (lastStyle cur t)) ts).map (t ++ ·) := by
  induction t generalizing cur with
  | nil => simp [renderTokens, lastStyle]
  | cons x t ih =>
    obtain ⟨c, st⟩ := x
    rw [renderTokens, List.append_assoc, page_switch, List.cons_append]
    have e : page (stackOf st) (.char c :: (renderTokens st t ++ ts)) =
        (page (stackOf st) (renderTokens st t ++ ts)).map
          ((c, (stackOf st).headD ⟨.Default, .Default, .Normal⟩) :: ·) := by
      cases stackOf st <;> rfl
    rw [e, ih, stackOf_head, lastStyle]
    simp [Function.comp_def]

theorem tokens_htmlRender (t : Styled) : tokens (htmlRender t) =
    some (renderTokens Style.default t ++ switchTokens (lastStyle Style.default t) Style.default) :=
  lex_append_some _ _ _ _ _ (lex_render _ _) (lex_switch _ _)

theorem read_htmlRender (t : Styled) : HtmlReader.read (htmlRender t) = some t := by
  have e := page_render Style.default t (switchTokens (lastStyle Style.default t) Style.default)
  have e2 := page_switch (lastStyle Style.default t) Style.default []
  have e3 : stackOf Style.default = [] := rfl
  rw [List.append_nil] at e2
  rw [e2, e3] at e
  rw [HtmlReader.read, tokens_htmlRender]
  simpa [page] using e

/-- Whether a span is open when the current style is `cur`. -/
def isOpen (cur : Style) : Bool := cur ≠ Style.default

theorem spans_switch (cur st : Style) (ts : List Token) :
    spans (isOpen cur) (switchTokens cur st ++ ts) = spans (isOpen st) ts := by
  unfold switchTokens
  by_cases h : cur = st
  · subst h; simp
  · rw [if_neg h, List.append_assoc]
    have h1 : ∀ us, spans (isOpen cur) (closeTokens cur ++ us) = spans false us := by
      intro us
      unfold isOpen closeTokens
      by_cases h : cur = Style.default <;> simp [h, spans]
    rw [h1]
    unfold openTokens isOpen
    by_cases h2 : st = Style.default <;> simp [h2, spans]

theorem spans_render (cur : Style) (t : Styled) (ts : List Token) :
    spans (isOpen cur) (renderTokens cur t ++ ts) = spans (isOpen (lastStyle cur t)) ts := by
  induction t generalizing cur with
  | nil => simp [renderTokens, lastStyle]
  | cons x t ih =>
    obtain ⟨c, st⟩ := x
    rw [renderTokens, List.append_assoc, spans_switch, List.cons_append, spans, ih, lastStyle]

theorem chars_append (a b : List Token) : chars (a ++ b) = chars a ++ chars b := by simp [chars]

theorem chars_switch (cur st : Style) : chars (switchTokens cur st) = [] := by
  unfold switchTokens closeTokens openTokens
  by_cases h : cur = st <;> by_cases h1 : cur = Style.default <;> by_cases h2 : st = Style.default <;>
    simp [h, h1, h2, chars]

theorem chars_render (cur : Style) (t : Styled) : chars (renderTokens cur t) = text t := by
  induction t generalizing cur with
  | nil => rfl
  | cons x t ih =>
    obtain ⟨c, st⟩ := x
    rw [renderTokens, chars_append, chars_switch, List.nil_append]
    have : chars (.char c :: renderTokens st t) = c :: chars (renderTokens st t) := rfl
    rw [this, ih]
    rfl

theorem tagsAt_switch (cur st : Style) (n : Nat) (ts : List Token) :
    tagsAt n (switchTokens cur st ++ ts) =
      (switchTokens cur st).map (n, ·) ++ tagsAt n ts := by
  unfold switchTokens closeTokens openTokens
  split
  · simp
  · split <;> split <;> simp [tagsAt]

theorem tagsAt_render (cur : Style) (t u : Styled) (n : Nat) (ts : List Token)
    (h : t.map Prod.snd = u.map Prod.snd) :
    tagsAt n (renderTokens cur t ++ ts) = tagsAt n (renderTokens cur u ++ ts) := by
  induction t generalizing cur u n with
  | nil =>
    cases u with
    | nil => rfl
    | cons => simp at h
  | cons x t ih =>
    obtain ⟨c, st⟩ := x
    cases u with
    | nil => simp at h
    | cons y u =>
      obtain ⟨d, st'⟩ := y
      simp only [List.map_cons, List.cons.injEq] at h
      obtain ⟨rfl, h⟩ := h
      simp only [renderTokens, List.append_assoc, tagsAt_switch, List.cons_append, tagsAt]
      rw [ih st u (n + 1) h]

theorem lastStyle_congr (cur : Style) (t u : Styled) (h : t.map Prod.snd = u.map Prod.snd) :
    lastStyle cur t = lastStyle cur u := by
  induction t generalizing cur u with
  | nil =>
    cases u with
    | nil => rfl
    | cons => simp at h
  | cons x t ih =>
    cases u with
    | nil => simp at h
    | cons y u =>
      simp only [List.map_cons, List.cons.injEq] at h
      simp only [lastStyle]
      rw [h.1]
      exact ih _ _ h.2

end Stylish
