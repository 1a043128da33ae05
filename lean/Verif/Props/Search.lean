import Verif.Spec.Search
import Verif.Props.Lines
import Verif.Props.Parts
import Verif.Props.Browser
/-
C110: searching in an output.
-/

namespace Stylish.Props

open Spec

variable {T : Type} [FmtWrite T]

/-! ## C110 -/

namespace Search

/-- What the argument needs of a kind of markup: changes of style begin with a character that does not begin text, and a
character of text can be read off. -/
structure Markup (sw : Style → Style → Str) (enc : Char → Str) (stop : Char) : Prop where
  self : ∀ a, sw a a = []
  begins : ∀ a b, a ≠ b → ∃ r, sw a b = stop :: r
  readable : ∀ c d x y, enc c ++ x = enc d ++ y → enc c = enc d ∧ c = d
  nonempty : ∀ c, enc c ≠ []

variable {sw : Style → Style → Str} {enc : Char → Str} {stop : Char}

theorem render_word (hm : Markup sw enc stop) (st : Style) (w : Str) :
    renderWith sw enc st (w.map fun c => (c, st)) = w.flatMap enc := by
  induction w with
  | nil => rfl
  | cons c w ih => rw [List.map_cons, renderWith, hm.self, ih, List.nil_append, List.flatMap_cons]

/-- A word in one style is found. -/
theorem found (hm : Markup sw enc stop) (w : Str) (cur : Style) (t : Styled) (tail : Str) (h : inOneStyle w t) :
    w.flatMap enc <:+: renderWith sw enc cur t ++ tail := by
  obtain ⟨st, a, b, rfl⟩ := h
  cases w with
  | nil => exact List.nil_infix
  | cons c w =>
    have h1 := render_word hm st w
    refine ⟨renderWith sw enc cur a ++ sw (lastStyle cur a) st,
      renderWith sw enc (lastStyle cur (a ++ (c :: w).map fun c => (c, st))) b ++ tail, ?_⟩
    rw [renderWith_append, renderWith_append, List.map_cons, renderWith, h1, List.flatMap_cons]
    simp [List.append_assoc]

theorem prefix_head {c : Char} {p x y : Str} (hp : p ≠ []) (hc : p.head? ≠ some c) (h : p ++ x <+: c :: y) : False := by
  cases p with
  | nil => exact hp rfl
  | cons d p =>
    obtain ⟨r, h⟩ := h
    simp only [List.cons_append, List.cons.injEq] at h
    exact hc (by simp [h.1])

/-- What is found where a character of the text begins is there. -/
theorem found_here (hm : Markup sw enc stop) (tail : Str) (htail : tail = [] ∨ ∃ r, tail = stop :: r) (w : Str) :
    ∀ (cur : Style) (t : Styled), (∀ c ∈ w, (enc c).head? ≠ some stop) →
    w.flatMap enc <+: renderWith sw enc cur t ++ tail → w.map (fun c => (c, cur)) <+: t := by
  induction w with
  | nil => intro cur t _ _; exact List.nil_prefix
  | cons c w ih =>
    intro cur t hw h
    have hc := hw c (by simp)
    rw [List.flatMap_cons] at h
    cases t with
    | nil =>
      exfalso
      rw [renderWith, List.nil_append] at h
      rcases htail with rfl | ⟨r, rfl⟩
      · have := List.prefix_nil.1 h
        exact hm.nonempty c (List.append_eq_nil_iff.1 this).1
      · exact prefix_head (hm.nonempty c) hc h
    | cons x t =>
      obtain ⟨d, st⟩ := x
      rw [renderWith] at h
      by_cases hst : cur = st
      · subst hst
        rw [hm.self, List.nil_append, List.append_assoc] at h
        obtain ⟨r, e⟩ := h
        rw [List.append_assoc] at e
        obtain ⟨e1, rfl⟩ := hm.readable _ _ _ _ e
        have e2 := List.append_cancel_left e
        obtain ⟨r', e3⟩ := ih cur t (fun c hc => hw c (by simp [hc])) ⟨r, e2⟩
        exact ⟨r', by simp [e3]⟩
      · exfalso
        obtain ⟨r, e⟩ := hm.begins cur st hst
        rw [e] at h
        exact prefix_head (hm.nonempty c) hc (by simpa using h)

theorem suffix_cases {α : Type} {s a b : List α} (h : s <:+ a ++ b) : s <:+ b ∨ ∃ q, q ≠ [] ∧ q <:+ a ∧ s = q ++ b := by
  obtain ⟨p, h⟩ := h
  rcases List.append_eq_append_iff.1 h with ⟨q, rfl, rfl⟩ | ⟨q, -, rfl⟩
  · cases q with
    | nil => exact .inl (List.suffix_refl _)
    | cons c q => exact .inr ⟨_, by simp, List.suffix_append .., rfl⟩
  · exact .inl (List.suffix_append ..)

/-- What is found is there, if its first character is not within markup. -/
theorem found_only (hm : Markup sw enc stop) (tail : Str) (htail : tail = [] ∨ ∃ a b, tail = sw a b) (c : Char) (w : Str)
    (hw : ∀ d ∈ c :: w, (enc d).head? ≠ some stop) (f : Char) (hf : (enc c).head? = some f) (hsw : ∀ a b, f ∉ sw a b)
    (henc : ∀ d, f ∉ (enc d).tail) (t : Styled) : ∀ cur,
    (c :: w).flatMap enc <:+: renderWith sw enc cur t ++ tail → inOneStyle (c :: w) t := by
  have htail' : tail = [] ∨ ∃ r, tail = stop :: r := by
    rcases htail with h | ⟨a, b, rfl⟩
    · exact .inl h
    · by_cases hab : a = b
      · subst hab; exact .inl (hm.self a)
      · exact .inr (hm.begins a b hab)
  obtain ⟨e, he⟩ : ∃ e, (c :: w).flatMap enc = f :: e := by
    rw [List.flatMap_cons]
    cases h : enc c with
    | nil => exact absurd h (hm.nonempty c)
    | cons x y =>
      rw [h] at hf
      obtain rfl : x = f := by simpa using hf
      exact ⟨_, rfl⟩
  -- a part that begins in `q`, where `f` is not
  have no : ∀ q r : Str, q ≠ [] → f ∉ q → f :: e <+: q ++ r → False := by
    intro q r hq hfq h
    cases q with
    | nil => exact hq rfl
    | cons x q =>
      obtain ⟨r', h⟩ := h
      simp only [List.cons_append, List.cons.injEq] at h
      exact hfq (by simp [h.1])
  induction t with
  | nil =>
    intro cur h
    exfalso
    rw [he, renderWith, List.nil_append] at h
    have hmem : f ∈ tail := h.subset (by simp)
    rcases htail with rfl | ⟨a, b, rfl⟩
    · simp at hmem
    · exact hsw a b hmem
  | cons x t ih =>
    obtain ⟨d, st⟩ := x
    intro cur h
    rw [List.infix_iff_prefix_suffix] at h
    obtain ⟨s, hp, hs⟩ := h
    rw [renderWith, List.append_assoc, List.append_assoc] at hs
    rcases suffix_cases hs with hs | ⟨q, hq, hq1, rfl⟩
    · rcases suffix_cases hs with hs | ⟨q, hq, hq1, rfl⟩
      · obtain ⟨st', a, b, e⟩ := ih st (List.infix_iff_prefix_suffix.2 ⟨s, hp, hs⟩)
        exact ⟨st', (d, st) :: a, b, by rw [← e]; simp⟩
      · obtain ⟨p, hp1⟩ := hq1
        cases p with
        | nil =>
          rw [List.nil_append] at hp1
          subst hp1
          obtain ⟨b, e⟩ := found_here hm tail htail' (c :: w) st ((d, st) :: t) hw (by
            rw [renderWith, hm.self, List.nil_append, List.append_assoc]; exact hp)
          exact ⟨st, [], b, by rw [← e]; simp⟩
        | cons y p =>
          exfalso
          rw [he] at hp
          refine no q _ hq (fun hfq => henc d ?_) hp
          rw [← hp1]
          simp [hfq]
    · exfalso
      rw [he] at hp
      obtain ⟨p, hp1⟩ := hq1
      exact no q _ hq (fun hfq => hsw cur st (by rw [← hp1]; simp [hfq])) hp

theorem ansi_markup : Markup ansiSwitch plainEnc ESC where
  self := ansiSwitch_self
  begins a b hab := by
    have h := ansiSwitch_escs a b
    rw [if_neg hab] at h
    unfold ansiSwitch at h ⊢
    split at h
    · rename_i hc; rw [if_pos hc]; exact ⟨_, rfl⟩
    · rename_i hc
      rw [if_neg hc]
      cases e : Ansi.segments (b.diffFrom a) with
      | nil => rw [e] at h; simp [ansiSegs] at h
      | cons s l => exact ⟨_, rfl⟩
  readable c d x y h := by
    simp only [plainEnc, List.singleton_append, List.cons.injEq] at h
    simp [h.1]
  nonempty c := by simp [plainEnc]

theorem html_switch_chars (a b : Style) : ∀ c ∈ htmlSwitch a b, inMarkup c = true ∨ c = '<' ∨ c = '>' := by
  have hclose : ∀ c ∈ htmlClose a, inMarkup c = true ∨ c = '<' ∨ c = '>' := by
    unfold htmlClose
    split
    · decide
    · intro c hc; exact absurd hc List.not_mem_nil
  have hseg : ∀ (d : StyleDiff), ∀ s ∈ Html.segments d, ∀ c ∈ s, inMarkup c = true := by
    intro d s hs
    have h1 : ∀ x : Color, ∀ c ∈ str (HtmlUtil.foreground x), inMarkup c = true := by intro x; cases x <;> decide
    have h2 : ∀ x : Color, ∀ c ∈ str (HtmlUtil.background x), inMarkup c = true := by intro x; cases x <;> decide
    have h3 : ∀ x : Intensity, ∀ c ∈ str (HtmlUtil.intensity x), inMarkup c = true := by intro x; cases x <;> decide
    obtain ⟨f, g, i⟩ := d
    simp only [Html.segments, List.mem_filterMap, List.mem_cons, List.not_mem_nil, or_false, id_eq,
      exists_eq_right] at hs
    rcases hs with hs | hs | hs
    · cases f with
      | none => cases hs
      | some x => cases hs; exact h1 x
    · cases g with
      | none => cases hs
      | some x => cases hs; exact h2 x
    · cases i with
      | none => cases hs
      | some x => cases hs; exact h3 x
  intro c hc
  unfold htmlSwitch at hc
  split at hc
  · exact hclose c hc
  · split at hc
    · have hseg := hseg (b.diffFrom Style.default)
      generalize Html.segments (b.diffFrom Style.default) = l at hseg hc
      cases l with
      | nil => cases hc
      | cons s l =>
        have hd : ∀ q ∈ s :: l, c ∈ q → inMarkup c = true := fun q hq hcq => hseg q hq c hcq
        simp only [htmlSegs, List.mem_append] at hc
        have h1 : ∀ c ∈ str "<span style=", inMarkup c = true ∨ c = '<' ∨ c = '>' := by decide
        have h2 : ∀ c ∈ str ">", inMarkup c = true ∨ c = '<' ∨ c = '>' := by decide
        rcases hc with hc | ((hc | hc) | hc) | hc
        · exact hclose c hc
        · exact h1 c hc
        · exact .inl (hd s (by simp) hc)
        · simp only [htmlRest, List.mem_flatMap, List.mem_cons] at hc
          obtain ⟨q, hq, rfl | hcq⟩ := hc
          · exact .inl (by decide)
          · exact .inl (hd q (by simp [hq]) hcq)
        · exact h2 c hc
    · exact absurd hc List.not_mem_nil

/-- The codes of characters. -/
theorem html_enc_cases (c : Char) :
    (c = '<' ∧ htmlEnc c = str "&lt;") ∨ (c = '>' ∧ htmlEnc c = str "&gt;") ∨ (c = '&' ∧ htmlEnc c = str "&amp;") ∨
    (c = '"' ∧ htmlEnc c = str "&quot;") ∨ (c = '\'' ∧ htmlEnc c = str "&#x27;") ∨
    (c ≠ '<' ∧ c ≠ '>' ∧ c ≠ '&' ∧ c ≠ '"' ∧ c ≠ '\'' ∧ htmlEnc c = [c]) := by
  unfold htmlEnc htmlEntity
  by_cases h1 : c = '<'
  · simp [h1]
  by_cases h2 : c = '>'
  · simp [h2]
  by_cases h3 : c = '&'
  · simp [h3]
  by_cases h4 : c = '"'
  · simp [h4]
  by_cases h5 : c = '\''
  · simp [h5]
  simp [h1, h2, h3, h4, h5]

theorem html_markup : Markup htmlSwitch htmlEnc '<' where
  self := htmlSwitch_self
  begins a b hab := by
    rw [htmlSwitch_eq, if_neg hab]
    by_cases ha : a = Style.default
    · rw [if_neg (fun h => hab (ha.trans h.symm))]
      exact ⟨_, by simp [htmlClose, ha, str]; rfl⟩
    · exact ⟨_, by simp only [htmlClose, if_pos ha]; rfl⟩
  readable c d x y h := by
    have key : c = d := by
      rcases html_enc_cases c with ⟨rfl, e⟩ | ⟨rfl, e⟩ | ⟨rfl, e⟩ | ⟨rfl, e⟩ | ⟨rfl, e⟩ | ⟨h1, h2, h3, h4, h5, e⟩ <;>
      rcases html_enc_cases d with ⟨rfl, e'⟩ | ⟨rfl, e'⟩ | ⟨rfl, e'⟩ | ⟨rfl, e'⟩ | ⟨rfl, e'⟩ | ⟨h1', h2', h3', h4', h5', e'⟩ <;>
      first
        | rfl
        | (rw [e, e'] at h; simp [str] at h; done)
        | (rw [e, e'] at h; simp [str] at h; exact absurd h.1.symm h3')
        | (rw [e, e'] at h; simp [str] at h; exact absurd h.1 h3)
        | (rw [e, e'] at h; simp [str] at h; exact h.1)
    exact ⟨by rw [key], key⟩
  nonempty c := by
    rcases html_enc_cases c with ⟨-, e⟩ | ⟨-, e⟩ | ⟨-, e⟩ | ⟨-, e⟩ | ⟨-, e⟩ | ⟨-, -, -, -, -, e⟩ <;> rw [e] <;> simp [str]

theorem htmlSource_eq (w : Str) : htmlSource w = w.flatMap htmlEnc := by
  unfold htmlSource
  congr 1
  funext c
  rcases html_enc_cases c with ⟨rfl, e⟩ | ⟨rfl, e⟩ | ⟨rfl, e⟩ | ⟨rfl, e⟩ | ⟨rfl, e⟩ | ⟨h1, h2, h3, h4, h5, e⟩ <;> rw [e] <;>
    simp_all

theorem html_stop (c : Char) : (htmlEnc c).head? ≠ some '<' := by
  rcases html_enc_cases c with ⟨-, e⟩ | ⟨-, e⟩ | ⟨-, e⟩ | ⟨-, e⟩ | ⟨-, e⟩ | ⟨h1, -, -, -, -, e⟩ <;> rw [e] <;> simp [str]
  exact h1

theorem html_enc_tail (d : Char) : ∀ c ∈ (htmlEnc d).tail, inMarkup c = true := by
  rcases html_enc_cases d with ⟨-, e⟩ | ⟨-, e⟩ | ⟨-, e⟩ | ⟨-, e⟩ | ⟨-, e⟩ | ⟨-, -, -, -, -, e⟩ <;> rw [e]
  · decide
  · decide
  · decide
  · decide
  · decide
  · simp

end Search

/-- C110: a word that is in one style in the text is found in the output of `Ansi`; and unless it has an escape character or
begins with a character that may be within an escape sequence, nothing else is found. -/
theorem C110_ansi (k : FmtSink T) (t : T) (chs : List Chunk) (out : Str)
    (h : AnsiWrote k t chs out ∨ AnsiFinished k t chs out) (c : Char) (word : Str) :
    (inOneStyle (c :: word) (flatten chs) → c :: word <:+: out) ∧
    (inSequence c = false → '\x1b' ∉ c :: word → c :: word <:+: out → inOneStyle (c :: word) (flatten chs)) := by
  obtain ⟨tail, htail, rfl⟩ : ∃ tail, (tail = [] ∨ ∃ a b, tail = ansiSwitch a b) ∧
      out = renderWith ansiSwitch plainEnc Style.default (flatten chs) ++ tail := by
    rcases h with h | h
    · exact ⟨[], .inl rfl, by rw [List.append_nil]; exact ansiWrote_eq k t chs out h⟩
    · exact ⟨_, .inr ⟨_, _, rfl⟩, ansiFinished_eq k t chs out h⟩
  have e : ∀ w : Str, w.flatMap plainEnc = w := fun w => by
    show w.flatMap (fun c => [c]) = w
    simp
  refine ⟨fun hw => ?_, fun hc hesc hw => ?_⟩
  · have := Search.found Search.ansi_markup (c :: word) Style.default (flatten chs) tail hw
    rwa [e] at this
  · refine Search.found_only Search.ansi_markup tail htail c word (fun d hd => ?_) c rfl (fun a b hm => ?_) (fun d hm => ?_)
      (flatten chs) Style.default (by rwa [e])
    · simp only [plainEnc, List.head?_cons, ne_eq, Option.some.injEq]
      rintro rfl
      exact hesc hd
    · have := ansiSwitch_marks a b c hm
      simp only [ansiMark, inSequence, Bool.or_eq_true, Bool.or_eq_false_iff, decide_eq_true_eq, decide_eq_false_iff_not] at this hc
      rcases this with (((h | h) | h) | h) | h
      · exact hesc (by simp [h])
      · exact hc.1.1.1 h
      · simp [h] at hc
      · exact hc.1.2 h
      · exact hc.2 h
    · simp [plainEnc] at hm

/-- C110 for the source of `Html`. -/
theorem C110_html (k : FmtSink T) (t : T) (chs : List Chunk) (out : Str)
    (h : HtmlWrote k t chs out ∨ HtmlFinished k t chs out) (c : Char) (word : Str) :
    (inOneStyle (c :: word) (flatten chs) → htmlSource (c :: word) <:+: out) ∧
    (inMarkup c = false → htmlSource (c :: word) <:+: out → inOneStyle (c :: word) (flatten chs)) := by
  obtain ⟨tail, htail, rfl⟩ : ∃ tail, (tail = [] ∨ ∃ a b, tail = htmlSwitch a b) ∧
      out = renderWith htmlSwitch htmlEnc Style.default (flatten chs) ++ tail := by
    rcases h with h | h
    · exact ⟨[], .inl rfl, by rw [List.append_nil]; exact htmlWrote_eq k t chs out h⟩
    · exact ⟨_, .inr ⟨_, _, rfl⟩, htmlFinished_eq k t chs out h⟩
  rw [Search.htmlSource_eq]
  refine ⟨fun hw => Search.found Search.html_markup (c :: word) Style.default (flatten chs) tail hw, fun hc hw => ?_⟩
  obtain ⟨f, hf, hfm, hf1, hf2⟩ : ∃ f, (htmlEnc c).head? = some f ∧ inMarkup f = false ∧ f ≠ '<' ∧ f ≠ '>' := by
    rcases Search.html_enc_cases c with ⟨-, e⟩ | ⟨-, e⟩ | ⟨-, e⟩ | ⟨-, e⟩ | ⟨-, e⟩ | ⟨h1, h2, -, -, -, e⟩ <;> rw [e]
    · exact ⟨'&', by decide⟩
    · exact ⟨'&', by decide⟩
    · exact ⟨'&', by decide⟩
    · exact ⟨'&', by decide⟩
    · exact ⟨'&', by decide⟩
    · exact ⟨c, rfl, hc, h1, h2⟩
  refine Search.found_only Search.html_markup tail htail c word (fun d _ => Search.html_stop d) f hf (fun a b hm => ?_)
    (fun d hm => ?_) (flatten chs) Style.default hw
  · rcases Search.html_switch_chars a b f hm with h | h | h
    · rw [hfm] at h; cases h
    · exact hf1 h
    · exact hf2 h
  · rw [Search.html_enc_tail d f hm] at hfm; cases hfm

/-! ### Samples -/

/-- `Tom & Jerry`, with the last word in red. -/
def searchSample : List Chunk := [(str "Tom & J", Style.default), (str "erry", ⟨.Red, .Default, .Normal⟩)]

/-- "Tom &" is found in both. "Jerry" is not, as it is in two styles. -/
example : AnsiFinished stringSink StdString.new searchSample (ansiRender (flatten searchSample)) ∧
    HtmlFinished stringSink StdString.new searchSample (htmlRender (flatten searchSample)) ∧
    inOneStyle (str "Tom &") (flatten searchSample) ∧
    inSequence 'T' = false ∧ inSequence 'J' = false ∧ inMarkup 'T' = false ∧ inMarkup 'J' = false ∧
    ¬ inOneStyle (str "Jerry") (flatten searchSample) ∧
    htmlSource (str "Tom &") = str "Tom &amp;" := by
  have h := (ansiFinished_exists stringSink stringSink_accepting StdString.new searchSample).2
  refine ⟨h, (htmlFinished_exists stringSink stringSink_accepting StdString.new searchSample).2,
    ⟨Style.default, [], flatten (searchSample.drop 1) |> fun r => (' ', Style.default) :: ('J', Style.default) :: r, by decide +kernel⟩,
    by decide, by decide, by decide, by decide, fun hj => ?_, by decide +kernel⟩
  have := (C110_ansi stringSink StdString.new searchSample _ (.inr h) 'J' (str "erry")).1 hj
  have e : ¬ ('J' :: str "erry") <:+: ansiRender (flatten searchSample) := by decide +kernel
  exact e this

/-- C110: the conditions on the first character are needed: "31" and "span" are found in outputs without them. -/
theorem C110_markup_counterexample :
    let chs : List Chunk := [(str "a", ⟨.Red, .Default, .Normal⟩)]
    (∃ out, AnsiFinished stringSink StdString.new chs out ∧ str "31" <:+: out) ∧
    (∃ out, HtmlFinished stringSink StdString.new chs out ∧ htmlSource (str "span") <:+: out) ∧
    (∀ st, ¬ (str "31").map (fun c => (c, st)) <:+: flatten chs) ∧ ∀ st, ¬ (str "span").map (fun c => (c, st)) <:+: flatten chs := by
  intro chs
  have short : ∀ (w : Str) (st : Style), 1 < w.length → ¬ w.map (fun c => (c, st)) <:+: flatten chs := by
    intro w st hw h
    have := h.length_le
    rw [List.length_map] at this
    have e : (flatten chs).length = 1 := by decide
    omega
  exact ⟨⟨_, (ansiFinished_exists stringSink stringSink_accepting StdString.new chs).2, by decide +kernel⟩,
    ⟨_, (htmlFinished_exists stringSink stringSink_accepting StdString.new chs).2, by decide +kernel⟩,
    fun st => short _ st (by decide), fun st => short _ st (by decide)⟩

end Stylish.Props
