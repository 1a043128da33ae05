import Verif.Lemmas.Failure
/-
Where a failing `Html` write can stop, and what the HTML reader makes of it.
-/

namespace Stylish

open Spec HtmlReader

/-- The action leaves `get` alone. -/
def Keeps {S E A σ : Type} (get : S → σ) (x : Act S E A) : Prop := ∀ s, get (x s).2 = get s

theorem Keeps.bind {S E A B σ : Type} {get : S → σ} {x : Act S E A} {f : A → Act S E B}
    (hx : Keeps get x) (hf : ∀ a, Keeps get (f a)) : Keeps get (x >>= f) := by
  intro s
  rw [Act.bind_apply]
  have h := hx s
  rcases hs : x s with ⟨r, s'⟩
  rw [hs] at h
  cases r with
  | ok a => exact (hf a s').trans h
  | err e => exact h
  | panic => exact h
  | diverge => exact h

section
variable {T : Type} [FmtWrite T] {k : FmtSink T}

namespace Html

theorem put_stops (hk : HonestSink k) (s : Str) (hs : s ≠ []) :
    Stops (del k) current (put (T := T) s) s := by
  intro a r a' h
  simp only [put, onInner] at h
  rcases hw : FmtWrite.writeStr s a.inner with ⟨rr, t⟩
  rw [hw] at h
  obtain ⟨rfl, rfl⟩ := Prod.mk.inj h
  refine ⟨rfl, ?_⟩
  by_cases hr : rr = .ok ()
  · subst hr
    exact Or.inl ⟨⟨(), rfl⟩, k.ok _ _ _ hw⟩
  · obtain ⟨p, h1, h2⟩ := k.notOk _ _ _ _ hw hr
    refine Or.inr ⟨fun _ => hr, p, h1, ?_, h2⟩
    rintro rfl
    exact hk _ _ _ _ hw hr hs h2

theorem putRest_stops (hk : HonestSink k) (l : List Str) (hl : ∀ s ∈ l, s ≠ []) :
    Stops (del k) current (putRest (T := T) l) (htmlRest l) := by
  induction l with
  | nil => exact Stops.pure _
  | cons x l ih =>
    exact ((put_stops hk _ (by simp [str])).bind fun _ => (put_stops hk _ (hl x (by simp))).bind
      fun _ => ih fun s h => hl s (by simp [h])).cast (by simp [htmlRest, str])

theorem closeSpan_stops (hk : HonestSink k) (c : Style) :
    Stops (del k) current (closeSpan (T := T) c) (htmlClose c) := by
  unfold closeSpan htmlClose
  split
  · exact put_stops hk _ (by simp [str])
  · exact Stops.pure _

theorem putSegments_stops (hk : HonestSink k) (c : Style) (l : List Str) (hl : ∀ s ∈ l, s ≠ []) :
    Stops (del k) current (putSegments (T := T) c l) (htmlSegs c l) := by
  cases l with
  | nil => exact Stops.pure _
  | cons x l =>
    exact ((closeSpan_stops hk _).bind fun _ => (put_stops hk _ (by simp [str])).bind fun _ =>
      (put_stops hk _ (hl x (by simp))).bind fun _ =>
      (putRest_stops hk _ fun s h => hl s (by simp [h])).bind fun _ =>
      put_stops hk _ (by simp [str])).cast (by simp [htmlSegs])

theorem switchStyle_stops (hk : HonestSink k) (c s : Style) :
    Stops (del k) current (switchStyle (T := T) c s) (htmlSwitch c s) := by
  unfold switchStyle htmlSwitch
  split
  · exact closeSpan_stops hk _
  · split
    · exact putSegments_stops hk _ _ fun p hp => (isSeg_segments _ p hp).1
    · exact Stops.pure _

theorem putEscaped_keeps (run s : Str) : Keeps current (putEscaped (T := T) run s) := by
  induction s generalizing run with
  | nil => intro a; rfl
  | cons c s ih =>
    unfold putEscaped
    split
    · exact Keeps.bind (fun a => rfl) fun _ => Keeps.bind (fun a => rfl) fun _ => ih []
    · exact ih _

theorem attempt (hk : HonestSink k) (s : Str) (hs : s ≠ []) (st : Style) (a a' : Html T)
    (r : Res FmtError Unit) (h : Write.writeStr s st a = (r, a')) :
    Attempt (del k) current htmlSwitch (s.flatMap htmlEnc) st r a a' := by
  have hne : s.isEmpty = false := by cases s <;> simp_all
  have h : writeStr s st a = (r, a') := h
  unfold writeStr at h
  rw [hne] at h
  have h : (switchStyle a.current st >>= fun _ => setCurrent st >>= fun _ =>
      (putEscaped [] s >>= fun _ => pure ())) a = (r, a') := h
  exact Attempt.of (switchStyle_stops hk _ _) (setCur := setCurrent st)
    (fun a => ⟨⟨a.inner, st⟩, rfl, rfl, rfl⟩)
    (((putEscaped_emits k [] s).bind fun _ => Emits.pure ()).cast (by simp) (fun _ => rfl))
    (Keeps.bind (putEscaped_keeps [] s) fun _ => fun _ => rfl) h

end Html
end

/-! ### Unfinished pages -/

theorem lex_tag_open (acc s : Str) (h : '>' ∉ s) : lex (.tag acc) s = none := by
  induction s generalizing acc with
  | nil => rfl
  | cons c s ih =>
    simp only [List.mem_cons, not_or] at h
    rw [lex, if_neg (Ne.symm h.1)]
    exact ih _ h.2

theorem lex_ref_open (acc s : Str) (h : ';' ∉ s) : lex (.ref acc) s = none := by
  induction s generalizing acc with
  | nil => rfl
  | cons c s ih =>
    simp only [List.mem_cons, not_or] at h
    rw [lex, if_neg (Ne.symm h.1)]
    exact ih _ h.2

theorem after_some (p s v : Str) (h : HtmlReader.after p s = some v) : s = p ++ v := by
  induction p generalizing s with
  | nil => simpa [HtmlReader.after] using h
  | cons c p ih =>
    cases s with
    | nil => simp [HtmlReader.after] at h
    | cons d s =>
      simp only [HtmlReader.after] at h
      split at h
      · rename_i e; subst e; rw [ih s h]; rfl
      · simp at h

/-- A tag never contains `<`. -/
theorem tag_lt (s : Str) (h : '<' ∈ s) : tag s = none := by
  unfold tag
  rw [if_neg (by rintro rfl; exact absurd h (by decide))]
  cases ha : HtmlReader.after (str "span style=") s with
  | none => rfl
  | some v =>
    have e := after_some _ _ _ ha
    rw [e] at h
    have hv : '<' ∈ v := by
      rcases List.mem_append.1 h with h | h
      · exact absurd h (by decide)
      · exact h
    have : legalValue v = false := by
      cases hl : legalValue v with
      | false => rfl
      | true =>
        simp only [legalValue, Bool.and_eq_true, List.all_eq_true] at hl
        exact absurd (hl.2 _ hv) (by decide)
    simp [this]

/-- An unfinished tag followed by `</span>` cannot be read. -/
theorem lex_tag_close (acc s : Str) (h : '>' ∉ s) : lex (.tag acc) (s ++ str "</span>") = none := by
  have e : s ++ str "</span>" = (s ++ str "</span") ++ str ">" := by simp [str]
  rw [e, lex_tag, tag_lt]
  · rfl
  · simp [str]
  · simp only [List.mem_append, not_or]
    exact ⟨h, by decide⟩

/-- Splitting a prefix of an append. -/
theorem prefix_append_cases {α : Type} {p a b : List α} (h : p <+: a ++ b) :
    (p <+: a ∧ p ≠ a) ∨ ∃ q, p = a ++ q ∧ q <+: b := by
  rcases List.prefix_append_iff_of h with h' | h'
  · by_cases e : p = a
    · subst e; exact Or.inr ⟨[], by simp, by simp⟩
    · exact Or.inl ⟨h', e⟩
  · exact Or.inr h'
where
  List.prefix_append_iff_of {α : Type} {p a b : List α} (h : p <+: a ++ b) :
      p <+: a ∨ ∃ q, p = a ++ q ∧ q <+: b := by
    obtain ⟨t, h⟩ := h
    rcases List.append_eq_append_iff.1 h with ⟨c, rfl, rfl⟩ | ⟨c, rfl, rfl⟩
    · exact Or.inl ⟨c, rfl⟩
    · exact Or.inr ⟨c, rfl, t, rfl⟩

/-- A proper, non-empty part of a tag: inside the tag. -/
theorem part_of_tag {p x : Str} (hx : '>' ∉ x) (hp : p <+: '<' :: (x ++ str ">"))
    (hne : p ≠ '<' :: (x ++ str ">")) (hp0 : p ≠ []) : ∃ q, p = '<' :: q ∧ '>' ∉ q := by
  cases p with
  | nil => simp at hp0
  | cons c q =>
    simp only [List.cons_prefix_cons] at hp
    obtain ⟨rfl, hp⟩ := hp
    refine ⟨q, rfl, ?_⟩
    rcases prefix_append_cases hp with ⟨h, -⟩ | ⟨y, rfl, hy⟩
    · exact fun hm => hx (h.subset hm)
    · have : y = [] := by
        cases y with
        | nil => rfl
        | cons d y =>
          exfalso
          apply hne
          obtain ⟨z, hz⟩ := hy
          simp only [str, List.cons_append] at hz
          have hz : d :: (y ++ z) = ['>'] := hz
          simp only [List.cons.injEq, List.append_eq_nil_iff] at hz
          obtain ⟨rfl, rfl, rfl⟩ := hz
          rfl
      subst this
      simpa using hx

/-- What a proper, non-empty part of the markup between two styles can be. -/
theorem part_of_switch {cur st : Style} {p : Str} (hp : p <+: htmlSwitch cur st)
    (hne : p ≠ htmlSwitch cur st) (hp0 : p ≠ []) :
    (∃ q, p = '<' :: q ∧ '>' ∉ q) ∨
    (cur ≠ Style.default ∧ st ≠ Style.default ∧ cur ≠ st ∧ ∃ q, p = str "</span>" ++ q ∧
      (q = [] ∨ ∃ q', q = '<' :: q' ∧ '>' ∉ q')) := by
  rw [htmlSwitch_eq] at hp hne
  by_cases h : cur = st
  · rw [if_pos h] at hp; simp at hp; exact absurd hp hp0
  rw [if_neg h] at hp hne
  have hopen : st ≠ Style.default → ∀ q : Str, q <+: str "<span style=" ++ valueOf st ++ str ">" →
      q ≠ str "<span style=" ++ valueOf st ++ str ">" → q ≠ [] → ∃ q', q = '<' :: q' ∧ '>' ∉ q' := by
    intro h2 q hq hqne hq0
    have e : str "<span style=" ++ valueOf st ++ str ">" =
        '<' :: ((str "span style=" ++ valueOf st) ++ str ">") := by simp [str]
    rw [e] at hq hqne
    refine part_of_tag ?_ hq hqne hq0
    simp only [List.mem_append, not_or]
    exact ⟨by decide, not_mem_of_legal _ (legalValue_valueOf st h2)⟩
  by_cases hc : cur = Style.default
  · have e : htmlClose cur = [] := by simp [htmlClose, hc]
    have h2 : st ≠ Style.default := fun e => h (hc.trans e.symm)
    rw [e, if_neg h2, List.nil_append] at hp hne
    exact Or.inl (hopen h2 p hp hne hp0)
  · have e : htmlClose cur = str "</span>" := by simp [htmlClose, hc]
    rw [e] at hp hne
    rcases prefix_append_cases hp with ⟨h1, h2⟩ | ⟨q, rfl, hq⟩
    · have e2 : str "</span>" = '<' :: (str "/span" ++ str ">") := by simp [str]
      rw [e2] at h1 h2
      exact Or.inl (part_of_tag (by decide) h1 h2 hp0)
    · by_cases h2 : st = Style.default
      · rw [if_pos h2] at hq hne
        simp at hq
        subst hq
        simp at hne
      · rw [if_neg h2] at hq hne
        refine Or.inr ⟨hc, h2, h, q, rfl, ?_⟩
        by_cases hq0 : q = []
        · exact Or.inl hq0
        · refine Or.inr (hopen h2 q hq ?_ hq0)
          intro e; exact hne (by rw [e])

/-- A proper, non-empty part of an encoded character is an unfinished reference. -/
theorem part_of_enc {c : Char} {p : Str} (hp : p <+: htmlEnc c) (hne : p ≠ htmlEnc c) (hp0 : p ≠ []) :
    ∃ q, p = '&' :: q ∧ ';' ∉ q := by
  have key : ∀ x : Str, ';' ∉ x → p <+: '&' :: (x ++ [';']) → p ≠ '&' :: (x ++ [';']) →
      ∃ q, p = '&' :: q ∧ ';' ∉ q := by
    clear hp hne
    intro x hx hp hne
    cases p with
    | nil => simp at hp0
    | cons d q =>
      simp only [List.cons_prefix_cons] at hp
      obtain ⟨rfl, hp⟩ := hp
      refine ⟨q, rfl, ?_⟩
      rcases prefix_append_cases hp with ⟨h, -⟩ | ⟨y, rfl, hy⟩
      · exact fun hm => hx (h.subset hm)
      · have : y = [] := by
          cases y with
          | nil => rfl
          | cons d y =>
            exfalso
            apply hne
            obtain ⟨z, hz⟩ := hy
            have hz : d :: (y ++ z) = [';'] := hz
            simp only [List.cons.injEq, List.append_eq_nil_iff] at hz
            obtain ⟨rfl, rfl, rfl⟩ := hz
            rfl
        subst this
        simpa using hx
  unfold htmlEnc htmlEntity at hp hne
  by_cases h1 : c = '<'
  · subst h1; exact key (str "lt") (by decide) hp hne
  by_cases h2 : c = '>'
  · subst h2; exact key (str "gt") (by decide) hp hne
  by_cases h3 : c = '&'
  · subst h3; exact key (str "amp") (by decide) hp hne
  by_cases h4 : c = '"'
  · subst h4; exact key (str "quot") (by decide) hp hne
  by_cases h5 : c = '\''
  · subst h5; exact key (str "#x27") (by decide) hp hne
  · simp only [h1, h2, h3, h4, h5, if_false, Option.getD_none] at hp hne
    exfalso
    cases p with
    | nil => simp at hp0
    | cons d q =>
      simp only [List.cons_prefix_cons, List.prefix_nil] at hp
      obtain ⟨rfl, rfl⟩ := hp
      simp at hne

/-- A prefix of encoded text is encoded text, perhaps followed by an unfinished reference. -/
theorem part_of_text {s q : Str} (h : q <+: s.flatMap htmlEnc) :
    ∃ p, p <+: s ∧ (q = p.flatMap htmlEnc ∨
      ∃ x, q = p.flatMap htmlEnc ++ '&' :: x ∧ ';' ∉ x) := by
  induction s generalizing q with
  | nil => exact ⟨[], by simp, Or.inl (by simpa using h)⟩
  | cons c s ih =>
    rw [List.flatMap_cons] at h
    rcases prefix_append_cases h with ⟨h1, h2⟩ | ⟨y, rfl, hy⟩
    · by_cases h0 : q = []
      · exact ⟨[], by simp, Or.inl h0⟩
      · obtain ⟨x, rfl, hx⟩ := part_of_enc h1 h2 h0
        exact ⟨[], by simp, Or.inr ⟨x, rfl, hx⟩⟩
    · obtain ⟨p, hp, h⟩ := ih hy
      refine ⟨c :: p, by simpa using hp, ?_⟩
      rcases h with rfl | ⟨x, rfl, hx⟩
      · exact Or.inl rfl
      · exact Or.inr ⟨x, by simp, hx⟩

theorem lex_text (s : Str) : lex .data (s.flatMap htmlEnc) = some (s.map .char) := by
  induction s with
  | nil => rfl
  | cons c s ih =>
    rw [List.flatMap_cons]
    exact lex_append_some _ _ _ _ _ (lex_enc c) ih

theorem page_text (st : Style) (s : Str) (ts : List Token) :
    page (stackOf st) (s.map .char ++ ts) = (page (stackOf st) ts).map (paint s st ++ ·) := by
  induction s with
  | nil => simp [paint]
  | cons c s ih =>
    have e : page (stackOf st) (.char c :: (s.map .char ++ ts)) =
        (page (stackOf st) (s.map .char ++ ts)).map
          ((c, (stackOf st).headD ⟨.Default, .Default, .Normal⟩) :: ·) := by
      cases stackOf st <;> rfl
    rw [List.map_cons, List.cons_append, e, ih, stackOf_head]
    simp [Function.comp_def, paint]

theorem openSpans_append (stack : List Style) (a b : List Token) :
    openSpans stack (a ++ b) = (openSpans stack a).bind fun st => openSpans st b := by
  fun_induction openSpans stack a with
  | case1 => rfl
  | case2 stack c ts ih => rw [List.cons_append, openSpans, ih]
  | case3 stack v ts ih =>
    rw [List.cons_append, openSpans]
    cases styleAttr v (stack.headD ⟨.Default, .Default, .Normal⟩) with
    | none => rfl
    | some st => exact ih st
  | case4 x stack ts ih => rw [List.cons_append, openSpans, ih]
  | case5 ts => rfl

theorem openSpans_text (stack : List Style) (s : Str) :
    openSpans stack (s.map .char) = some stack := by
  induction s with
  | nil => rfl
  | cons c s ih => rw [List.map_cons, openSpans, ih]

theorem openSpans_switch (cur st : Style) :
    openSpans (stackOf cur) (switchTokens cur st) = some (stackOf st) := by
  unfold switchTokens
  by_cases h : cur = st
  · subst h; simp [openSpans]
  · rw [if_neg h, openSpans_append]
    have h1 : openSpans (stackOf cur) (closeTokens cur) = some [] := by
      unfold stackOf closeTokens
      by_cases h : cur = Style.default <;> simp [h, openSpans]
    rw [h1]
    unfold openTokens stackOf
    by_cases h2 : st = Style.default
    · simp [h2, openSpans]
    · have := styleAttr_valueOf st h2
      simp only [h2, if_false, Option.bind_some, openSpans, List.headD_nil]
      have e : (⟨.Default, .Default, .Normal⟩ : Style) = Style.default := rfl
      rw [e, this]
      rfl

end Stylish
