import Verif.Lemmas.Html
import Verif.Props.Text
/-
Properties of the HTML backend: C19 - C23.
-/

namespace Stylish.Props

open Spec HtmlReader

variable {T : Type} [FmtWrite T]

/-- `out` is what reached the stream when the writes `chs` were made, successfully, on a new `Html` around
the stream `t`. -/
def HtmlWrote (k : FmtSink T) (t : T) (chs : List Chunk) (out : Str) : Prop :=
  ∃ a, writeChunks chs (Html.new t) = (.ok (), a) ∧ k.delivered a.inner = k.delivered t ++ out

/-- The same, followed by a successful `finish`. -/
def HtmlFinished (k : FmtSink T) (t : T) (chs : List Chunk) (out : Str) : Prop :=
  ∃ a b, writeChunks chs (Html.new t) = (.ok (), a) ∧ Html.finish a = (.ok (), b) ∧
    k.delivered b.inner = k.delivered t ++ out

theorem htmlWrote_eq (k : FmtSink T) (t : T) (chs : List Chunk) (out : Str)
    (h : HtmlWrote k t chs out) :
    out = renderWith htmlSwitch htmlEnc Style.default (flatten chs) := by
  obtain ⟨a, h1, h2⟩ := h
  have := (Html.renders k).writeChunks chs (Html.new t)
  rw [h1] at this
  have h3 : k.delivered a.inner = k.delivered t ++ _ := this.1
  rw [h2] at h3
  exact List.append_cancel_left h3

theorem htmlFinished_eq (k : FmtSink T) (t : T) (chs : List Chunk) (out : Str)
    (h : HtmlFinished k t chs out) : out = htmlRender (flatten chs) := by
  obtain ⟨a, b, h1, h2, h3⟩ := h
  have e := (Html.renders k).writeChunks chs (Html.new t)
  rw [h1] at e
  have e1 : k.delivered a.inner = k.delivered t ++ _ := e.1
  have e2 : a.current = _ := e.2
  have f := Html.finish_emits k a
  rw [h2] at f
  have f1 : k.delivered b.inner = k.delivered a.inner ++ _ := f.1
  rw [h3, e1, List.append_assoc] at f1
  rw [List.append_cancel_left f1, e2]
  rfl

/-- On a stream that accepts everything, all writes and `finish` succeed, so the hypotheses of the theorems
below are met by every list of writes. -/
theorem htmlFinished_exists (k : FmtSink T) (hT : AcceptingSink T) (t : T) (chs : List Chunk) :
    HtmlWrote k t chs (renderWith htmlSwitch htmlEnc Style.default (flatten chs)) ∧
    HtmlFinished k t chs (htmlRender (flatten chs)) := by
  have hacc : Accepting (Html T) := Html.accepting hT
  have h1 : writeChunks chs (Html.new t) = (.ok (), (writeChunks chs (Html.new t)).2) :=
    Prod.ext (by rw [Accepting.writeChunks hacc]) rfl
  have h2 := (Html.renders k).writeChunks_accepting hacc chs (Html.new t)
  obtain ⟨u, b, h3⟩ := Html.finish_neverFails hT (writeChunks chs (Html.new t)).2
  have h4 := Html.finish_emits k (writeChunks chs (Html.new t)).2
  rw [h3] at h4
  have h5 : k.delivered b.inner = Html.del k (writeChunks chs (Html.new t)).2 ++ _ := h4.1
  rw [h2.1, h2.2] at h5
  refine ⟨⟨_, h1, h2.1⟩, _, b, h1, h3, ?_⟩
  rw [h5, List.append_assoc]
  rfl

/-- A sample: text in three styles, with characters that need escaping, an empty write and multi-byte
characters. -/
def htmlSample : List Chunk :=
  [(['a', '<'], Style.default), (['&', '🦀'], ⟨.BrightRed, .Blue, .Bold⟩),
   ([], ⟨.Green, .Green, .Faint⟩), (['"', 'x'], ⟨.BrightRed, .Default, .Faint⟩),
   (['\'', '>'], Style.default), (['!'], ⟨.Default, .Cyan, .Normal⟩)]

/-- The output for the sample. -/
def htmlSampleOut : Str := str
  ("a&lt;<span style=color:#af0000;background-color:blue;font-weight:bolder>&amp;🦀</span>" ++
   "<span style=color:#af0000;font-weight:lighter>&quot;x</span>&#x27;&gt;" ++
   "<span style=background-color:cyan>!</span>")

theorem htmlSample_finished : HtmlFinished stringSink StdString.new htmlSample htmlSampleOut := by
  have h := (htmlFinished_exists stringSink stringSink_accepting StdString.new htmlSample).2
  have e : htmlRender (flatten htmlSample) = htmlSampleOut := by decide +kernel
  rwa [e] at h

/-! ## C19 -/

/-- C19: reading the finished output as HTML gives exactly the styled characters written. -/
theorem C19_reads_back (k : FmtSink T) (t : T) (chs : List Chunk) (out : Str)
    (h : HtmlFinished k t chs out) : HtmlReader.read out = some (flatten chs) := by
  rw [htmlFinished_eq k t chs out h, read_htmlRender]

/-- C19 for `html::format`. -/
theorem C19_format (args : Arguments) (log : List Chunk) (out : Str)
    (hargs : writes args.f Style.default FormatterArgs.default = (log, .ok ()))
    (hout : htmlFormat args = .ok out) : HtmlReader.read out = some (flatten log) := by
  rw [htmlFormat_eq, denote, hargs] at hout
  simp only [formatOutcome, Res.ok.injEq] at hout
  rw [← hout, read_htmlRender]

/-- The reader itself tells wrong output from right output: an unescaped `<`, a missing closing tag and a
wrong colour do not read back. -/
example : HtmlReader.read (str "a<b") = none ∧ HtmlReader.read (str "<span style=color:red>x") = none ∧
    HtmlReader.read (str "<span style=color:red>x</span>") = some [('x', ⟨.Red, .Default, .Normal⟩)] ∧
    HtmlReader.read (str "&lt;b&gt;") = some (paint ['<', 'b', '>'] Style.default) := by decide

example : HtmlReader.read htmlSampleOut = some (flatten htmlSample) :=
  C19_reads_back stringSink StdString.new htmlSample _ htmlSample_finished

/-! ## C20 -/

/-- C20: in the finished output, spans are balanced and never nested; and at every moment before `finish`,
at most one span is open (exactly when the last character written is styled). -/
theorem C20_balanced (k : FmtSink T) (t : T) (chs : List Chunk) (out : Str) :
    (HtmlFinished k t chs out → ∃ ts, tokens out = some ts ∧ spans false ts = some false) ∧
    (HtmlWrote k t chs out → ∃ ts, tokens out = some ts ∧
      spans false ts = some (match (flatten chs).getLast? with
        | none => false
        | some (_, st) => st ≠ ⟨.Default, .Default, .Normal⟩)) := by
  have hopen : isOpen Style.default = false := rfl
  constructor
  · intro h
    refine ⟨_, (congrArg tokens (htmlFinished_eq k t chs out h)).trans (tokens_htmlRender _), ?_⟩
    rw [← hopen, spans_render]
    have := spans_switch (lastStyle Style.default (flatten chs)) Style.default []
    rw [List.append_nil] at this
    rw [this]
    rfl
  · intro h
    refine ⟨_, (congrArg tokens (htmlWrote_eq k t chs out h)).trans (lex_render _ _), ?_⟩
    have := spans_render Style.default (flatten chs) []
    rw [List.append_nil] at this
    rw [← hopen, this]
    have key : ∀ (t : Styled) (cur : Style), lastStyle cur t =
        match t.getLast? with
        | none => cur
        | some (_, st) => st := by
      intro t
      induction t with
      | nil => intro _; rfl
      | cons x t ih =>
        intro cur
        rw [lastStyle, ih]
        cases t with
        | nil => rfl
        | cons y t =>
          rw [List.getLast?_cons_cons]
          rcases h : (y :: t).getLast? with _ | z
          · simp at h
          · rfl
    rw [key]
    cases (flatten chs).getLast? with
    | none => rfl
    | some x => rfl

example : spans false [.open ['v'], .close, .char 'x', .close] = none ∧
    spans false [.open ['v'], .open ['v'], .close, .close] = none := by decide

example : ∃ ts, tokens htmlSampleOut = some ts ∧ spans false ts = some false :=
  (C20_balanced stringSink StdString.new htmlSample _).1 htmlSample_finished

/-! ## C21 -/

/-- `e` is the escaped form of the character `c`: one of the five references for a special character,
otherwise the character itself. -/
def Escaped (c : Char) (e : Str) : Prop :=
  (c = '<' ∧ e = str "&lt;") ∨ (c = '>' ∧ e = str "&gt;") ∨ (c = '&' ∧ e = str "&amp;") ∨
  (c = '"' ∧ e = str "&quot;") ∨ (c = '\'' ∧ e = str "&#x27;") ∨
  (c ∉ ['<', '>', '&', '"', '\''] ∧ e = [c])

/-- The tags that stand between a character in style `a` and one in style `b`: none if the styles are the
same; otherwise a closing tag if `a` was styled, and then an opening tag with a legal style attribute that
denotes `b` if `b` is styled. -/
def TagsBetween (a b : Style) (e : Str) : Prop :=
  (a = b → e = []) ∧
  (a ≠ b → ∃ c o, e = c ++ o ∧
    (a = ⟨.Default, .Default, .Normal⟩ → c = []) ∧
    (a ≠ ⟨.Default, .Default, .Normal⟩ → c = str "</span>") ∧
    (b = ⟨.Default, .Default, .Normal⟩ → o = []) ∧
    (b ≠ ⟨.Default, .Default, .Normal⟩ → ∃ v, o = str "<span style=" ++ v ++ str ">" ∧
      legalValue v = true ∧ styleAttr v ⟨.Default, .Default, .Normal⟩ = some b))

/-- `out` is the escaped characters of `t` with tags as above before each of them. -/
inductive Marked : Style → Styled → Str → Prop
  | nil (a : Style) : Marked a [] []
  | cons (a : Style) (c : Char) (b : Style) (t : Styled) (tags esc out : Str) :
    TagsBetween a b tags → Escaped c esc → Marked b t out →
    Marked a ((c, b) :: t) (tags ++ esc ++ out)

theorem escaped_enc (c : Char) : Escaped c (htmlEnc c) := by
  unfold Escaped htmlEnc htmlEntity
  by_cases h1 : c = '<'; · simp [h1]
  by_cases h2 : c = '>'; · simp [h2]
  by_cases h3 : c = '&'; · simp [h3]
  by_cases h4 : c = '"'; · simp [h4]
  by_cases h5 : c = '\''; · simp [h5]
  simp [h1, h2, h3, h4, h5]

theorem tagsBetween_switch (a b : Style) : TagsBetween a b (htmlSwitch a b) := by
  have ed : (⟨.Default, .Default, .Normal⟩ : Style) = Style.default := rfl
  unfold TagsBetween
  rw [ed]
  refine ⟨fun h => by rw [h, htmlSwitch_self], fun h => ?_⟩
  rw [htmlSwitch_eq, if_neg h]
  refine ⟨_, _, rfl, fun ha => by simp [htmlClose, ha], fun ha => by simp [htmlClose, ha],
    fun hb => by rw [if_pos hb], fun hb => ⟨valueOf b, by rw [if_neg hb], legalValue_valueOf b hb,
      styleAttr_valueOf b hb⟩⟩

theorem marked_render (cur : Style) (t : Styled) :
    Marked cur t (renderWith htmlSwitch htmlEnc cur t) := by
  induction t generalizing cur with
  | nil => exact .nil cur
  | cons x t ih =>
    obtain ⟨c, st⟩ := x
    exact Marked.cons cur c st t _ _ _ (tagsBetween_switch cur st) (escaped_enc c) (ih st)

/-- C21: the output consists of the writer's own tags and the escaped text, nothing else. -/
theorem C21_only_own_tags (k : FmtSink T) (t : T) (chs : List Chunk) (out : Str) :
    (HtmlWrote k t chs out → Marked ⟨.Default, .Default, .Normal⟩ (flatten chs) out) ∧
    (HtmlFinished k t chs out → ∃ body e, out = body ++ e ∧
      Marked ⟨.Default, .Default, .Normal⟩ (flatten chs) body ∧ (e = [] ∨ e = str "</span>")) := by
  constructor
  · intro h
    rw [htmlWrote_eq k t chs out h]
    exact marked_render _ _
  · intro h
    refine ⟨_, _, htmlFinished_eq k t chs out h, marked_render _ _, ?_⟩
    simp only [htmlSwitch, if_true, htmlClose]
    split <;> simp

/-- Escaped text contains no `<`, `>`, `"` or `'`, and its `&` are the references'. -/
theorem escaped_is_inert (c : Char) (e : Str) (h : Escaped c e) :
    (∀ x ∈ e, x ∉ ['<', '>', '"', '\'']) ∧
    ('&' ∈ e → e ∈ [str "&lt;", str "&gt;", str "&amp;", str "&quot;", str "&#x27;"]) := by
  rcases h with ⟨rfl, rfl⟩ | ⟨rfl, rfl⟩ | ⟨rfl, rfl⟩ | ⟨rfl, rfl⟩ | ⟨rfl, rfl⟩ | ⟨hc, rfl⟩
  · decide
  · decide
  · decide
  · decide
  · decide
  · simp only [List.mem_cons, List.not_mem_nil, or_false, not_or] at hc
    refine ⟨?_, ?_⟩
    · intro x hx
      simp at hx
      subst hx
      simp [hc]
    · intro hx
      simp at hx
      exact absurd hx.symm hc.2.2.1

/-- What the raw output looks like from the outside, without any reader: wherever there is a `<` one of the
two tags of the writer starts, wherever there is an `&` one of the five references starts, and there are no
quotes. -/
def Inert (out : Str) : Prop :=
  ∀ s, s <:+ out →
    (['<'] <+: s → str "</span>" <+: s ∨ str "<span style=" <+: s) ∧
    (['&'] <+: s → ∃ e ∈ [str "&lt;", str "&gt;", str "&amp;", str "&quot;", str "&#x27;"], e <+: s) ∧
    ¬ ['"'] <+: s ∧ ¬ ['\''] <+: s

theorem inert_nil : Inert [] := by
  intro s hs
  rw [List.suffix_nil] at hs
  subst hs
  simp

theorem inert_append {a b : Str} (ha : Inert a) (hb : Inert b) : Inert (a ++ b) := by
  intro s hs
  have hcase : s <:+ b ∨ ∃ s', s' <:+ a ∧ s = s' ++ b := by
    obtain ⟨p, hp⟩ := hs
    rcases List.append_eq_append_iff.1 hp with ⟨q, rfl, rfl⟩ | ⟨q, rfl, rfl⟩
    · exact .inr ⟨q, ⟨p, rfl⟩, rfl⟩
    · exact .inl ⟨q, rfl⟩
  rcases hcase with hs | ⟨s', hs', rfl⟩
  · exact hb s hs
  · cases s' with
    | nil => exact hb _ (by simp)
    | cons c s' =>
      obtain ⟨h1, h2, h3, h4⟩ := ha _ hs'
      have key : ∀ d : Char, [d] <+: c :: s' ++ b ↔ [d] <+: c :: s' := by
        intro d; simp [List.cons_prefix_cons]
      rw [key, key, key, key]
      refine ⟨fun h => (h1 h).imp (·.trans (List.prefix_append _ _)) (·.trans (List.prefix_append _ _)),
        fun h => ?_, h3, h4⟩
      obtain ⟨e, he, hp⟩ := h2 h
      exact ⟨e, he, hp.trans (List.prefix_append _ _)⟩

theorem inert_cons {c : Char} {s : Str} (hs : Inert s)
    (hc : c ∉ ['<', '&', '"', '\'']) : Inert (c :: s) := by
  intro u hu
  rcases List.suffix_cons_iff.1 hu with rfl | hu
  · simp only [List.mem_cons, List.not_mem_nil, or_false, not_or] at hc
    simp [List.cons_prefix_cons, Ne.symm hc.1, Ne.symm hc.2.1, Ne.symm hc.2.2.1, Ne.symm hc.2.2.2]
  · exact hs u hu

theorem inert_plain (s : Str) (h : ∀ c ∈ s, c ∉ ['<', '&', '"', '\'']) : Inert s := by
  induction s with
  | nil => exact inert_nil
  | cons c s ih => exact inert_cons (ih (fun d hd => h d (by simp [hd]))) (h c (by simp))

/-- One of the writer's own pieces of markup, after its first character. -/
theorem inert_markup {c : Char} {s : Str} (hs : ∀ c ∈ s, c ∉ ['<', '&', '"', '\''])
    (hc : c = '<' ∧ (str "</span>" <+: c :: s ∨ str "<span style=" <+: c :: s) ∨
      c = '&' ∧ ∃ e ∈ [str "&lt;", str "&gt;", str "&amp;", str "&quot;", str "&#x27;"], e <+: c :: s) :
    Inert (c :: s) := by
  intro u hu
  rcases List.suffix_cons_iff.1 hu with rfl | hu
  · rcases hc with ⟨rfl, h⟩ | ⟨rfl, h⟩
    · exact ⟨fun _ => h, by simp [List.cons_prefix_cons], by simp [List.cons_prefix_cons],
        by simp [List.cons_prefix_cons]⟩
    · exact ⟨by simp [List.cons_prefix_cons], fun _ => h, by simp [List.cons_prefix_cons],
        by simp [List.cons_prefix_cons]⟩
  · exact inert_plain s hs u hu

theorem inert_enc (c : Char) : Inert (htmlEnc c) := by
  rcases escaped_enc c with ⟨-, e⟩ | ⟨-, e⟩ | ⟨-, e⟩ | ⟨-, e⟩ | ⟨-, e⟩ | ⟨hc, e⟩
  · rw [e]; exact inert_markup (c := '&') (s := str "lt;") (by decide) (.inr ⟨rfl, by decide⟩)
  · rw [e]; exact inert_markup (c := '&') (s := str "gt;") (by decide) (.inr ⟨rfl, by decide⟩)
  · rw [e]; exact inert_markup (c := '&') (s := str "amp;") (by decide) (.inr ⟨rfl, by decide⟩)
  · rw [e]; exact inert_markup (c := '&') (s := str "quot;") (by decide) (.inr ⟨rfl, by decide⟩)
  · rw [e]; exact inert_markup (c := '&') (s := str "#x27;") (by decide) (.inr ⟨rfl, by decide⟩)
  · rw [e]
    refine inert_plain _ ?_
    intro d hd
    simp only [List.mem_singleton] at hd
    subst hd
    simp only [List.mem_cons, List.not_mem_nil, or_false, not_or] at hc ⊢
    exact ⟨hc.1, hc.2.2.1, hc.2.2.2.1, hc.2.2.2.2⟩

theorem amp_foreground (c : Color) : '&' ∉ str (HtmlUtil.foreground c) := by cases c <;> decide
theorem amp_background (c : Color) : '&' ∉ str (HtmlUtil.background c) := by cases c <;> decide
theorem amp_intensity (i : Intensity) : '&' ∉ str (HtmlUtil.intensity i) := by cases i <;> decide

theorem amp_segments (d : StyleDiff) : ∀ p ∈ Html.segments d, '&' ∉ p := by
  obtain ⟨f, b, i⟩ := d
  cases f <;> cases b <;> cases i <;>
    simp [Html.segments, amp_foreground, amp_background, amp_intensity]

theorem amp_valueOf (st : Style) : '&' ∉ valueOf st := by
  have h := amp_segments (st.diffFrom Style.default)
  unfold valueOf
  cases e : Html.segments (st.diffFrom Style.default) with
  | nil => simp [htmlValue]
  | cons p ps =>
    rw [e] at h
    simp only [htmlValue, htmlRest, List.mem_append, List.mem_flatMap, List.mem_cons, not_or, not_exists,
      not_and]
    exact ⟨h p (by simp), fun q hq => ⟨by decide, h q (by simp [hq])⟩⟩

theorem valueOf_chars (st : Style) (h : st ≠ Style.default) :
    ∀ c ∈ valueOf st, c ∉ ['<', '>', '&', '"', '\''] := by
  intro c hc
  have hl := legalValue_valueOf st h
  simp only [legalValue, Bool.and_eq_true, List.all_eq_true] at hl
  have := hl.2 c hc
  simp only [List.mem_cons, List.not_mem_nil, or_false, not_or]
  refine ⟨?_, ?_, ?_, ?_, ?_⟩ <;> rintro rfl
  · exact absurd this (by decide)
  · exact absurd this (by decide)
  · exact amp_valueOf st hc
  · exact absurd this (by decide)
  · exact absurd this (by decide)

theorem inert_open (st : Style) (h : st ≠ Style.default) :
    Inert (str "<span style=" ++ valueOf st ++ str ">") := by
  have e : str "<span style=" ++ valueOf st ++ str ">" = '<' :: (str "span style=" ++ valueOf st ++ str ">") := by
    simp [str]
  have hp : str "<span style=" <+: str "<span style=" ++ valueOf st ++ str ">" := by
    rw [List.append_assoc]; exact List.prefix_append _ _
  rw [e] at hp ⊢
  refine inert_markup ?_ (.inl ⟨rfl, .inr hp⟩)
  intro c hc
  simp only [List.mem_append] at hc
  rcases hc with (hc | hc) | hc
  · revert c; decide
  · have := valueOf_chars st h c hc
    simp only [List.mem_cons, List.not_mem_nil, or_false, not_or] at this ⊢
    exact ⟨this.1, this.2.2⟩
  · revert c; decide

theorem inert_switch (a b : Style) : Inert (htmlSwitch a b) := by
  have hclose : Inert (htmlClose a) := by
    unfold htmlClose
    split
    · exact inert_markup (c := '<') (s := str "/span>") (by decide) (.inl ⟨rfl, .inl (by decide)⟩)
    · exact inert_nil
  rw [htmlSwitch_eq]
  split
  · exact inert_nil
  · refine inert_append hclose ?_
    split
    · exact inert_nil
    · rename_i h; exact inert_open b h

theorem inert_render (cur : Style) (t : Styled) : Inert (renderWith htmlSwitch htmlEnc cur t) := by
  induction t generalizing cur with
  | nil => exact inert_nil
  | cons x t ih =>
    obtain ⟨c, st⟩ := x
    exact inert_append (inert_append (inert_switch cur st) (inert_enc c)) (ih st)

/-- As many `<` as `>`. -/
theorem angle_enc (c : Char) : (htmlEnc c).count '<' = (htmlEnc c).count '>' := by
  have h := (escaped_is_inert c _ (escaped_enc c)).1
  rw [List.count_eq_zero.2 (fun hm => h _ hm (by decide)), List.count_eq_zero.2 (fun hm => h _ hm (by decide))]

theorem angle_switch (a b : Style) : (htmlSwitch a b).count '<' = (htmlSwitch a b).count '>' := by
  have hclose : (htmlClose a).count '<' = (htmlClose a).count '>' := by
    unfold htmlClose
    split
    · decide
    · rfl
  rw [htmlSwitch_eq]
  split
  · rfl
  · rw [List.count_append, List.count_append, hclose]
    congr 1
    split
    · rfl
    · rename_i h
      have hv := valueOf_chars b h
      have h1 : (valueOf b).count '<' = 0 := List.count_eq_zero.2 (fun hm => hv _ hm (by decide))
      have h2 : (valueOf b).count '>' = 0 := List.count_eq_zero.2 (fun hm => hv _ hm (by decide))
      rw [List.count_append, List.count_append, List.count_append, List.count_append, h1, h2]
      decide

theorem angle_render (cur : Style) (t : Styled) :
    (renderWith htmlSwitch htmlEnc cur t).count '<' = (renderWith htmlSwitch htmlEnc cur t).count '>' := by
  induction t generalizing cur with
  | nil => rfl
  | cons x t ih =>
    obtain ⟨c, st⟩ := x
    simp only [renderWith, List.count_append, angle_enc, angle_switch, ih]

/-- C21: the raw output is inert: every `<` in it starts one of the writer's own two tags, every `&` one of
the five references, it contains no quotes at all, and as many `>` as `<`. This holds after any sequence of
writes and after `finish`. -/
theorem C21_inert (k : FmtSink T) (t : T) (chs : List Chunk) (out : Str)
    (h : HtmlWrote k t chs out ∨ HtmlFinished k t chs out) :
    Inert out ∧ out.count '<' = out.count '>' := by
  rcases h with h | h
  · rw [htmlWrote_eq k t chs out h]
    exact ⟨inert_render _ _, angle_render _ _⟩
  · rw [htmlFinished_eq k t chs out h]
    refine ⟨inert_append (inert_render _ _) (inert_switch _ _), ?_⟩
    unfold htmlRender
    rw [List.count_append, List.count_append, angle_render, angle_switch]

example : Inert htmlSampleOut :=
  (C21_inert stringSink StdString.new htmlSample _ (.inr htmlSample_finished)).1

/-- And it says something: text that reached the output unescaped would not be inert. -/
example : ¬ Inert (str "<b>") ∧ ¬ Inert (str "a&b") ∧ ¬ Inert (str "it's") := by
  refine ⟨fun h => ?_, fun h => ?_, fun h => ?_⟩
  · exact absurd ((h _ (List.suffix_refl _)).1 (by decide)) (by decide)
  · exact absurd ((h (str "&b") (by decide)).2.1 (by decide)) (by decide)
  · exact absurd (h (str "'s") (by decide)).2.2.2 (by decide)

/-- C21: the text of the tokens is exactly the text written, and which tags there are, and where, depends
only on the styles, never on the characters. -/
theorem C21_tags_from_styles_only (k : FmtSink T) (t t' : T) (chs chs' : List Chunk) (out out' : Str)
    (h : HtmlFinished k t chs out) (h' : HtmlFinished k t' chs' out')
    (hsame : (flatten chs).map Prod.snd = (flatten chs').map Prod.snd) :
    ∃ ts ts', tokens out = some ts ∧ tokens out' = some ts' ∧
      chars ts = text (flatten chs) ∧ chars ts' = text (flatten chs') ∧
      tagsAt 0 ts = tagsAt 0 ts' := by
  refine ⟨_, _, (congrArg tokens (htmlFinished_eq k t chs out h)).trans (tokens_htmlRender _),
    (congrArg tokens (htmlFinished_eq k t' chs' out' h')).trans (tokens_htmlRender _), ?_, ?_, ?_⟩
  · rw [chars_append, chars_render, chars_switch, List.append_nil]
  · rw [chars_append, chars_render, chars_switch, List.append_nil]
  · rw [lastStyle_congr _ _ _ hsame]
    exact tagsAt_render _ _ _ _ _ hsame

example : HtmlFinished stringSink StdString.new [(str "<b>", ⟨.Red, .Default, .Normal⟩)]
      (str "<span style=color:red>&lt;b&gt;</span>") ∧
    HtmlFinished stringSink StdString.new [(['x', 'y'], ⟨.Red, .Default, .Normal⟩), (['z'], ⟨.Red, .Default, .Normal⟩)]
      (str "<span style=color:red>xyz</span>") := ⟨⟨_, _, rfl, rfl, by decide⟩, _, _, rfl, rfl, by decide⟩

/-! ## C22 -/

/-- C22: what `Html` produces (before and after `finish`) depends only on the styled characters. -/
theorem C22_chunk_insensitive (k : FmtSink T) (t t' : T) (chs chs' : List Chunk) (out out' : Str)
    (hsame : flatten chs = flatten chs') :
    (HtmlWrote k t chs out → HtmlWrote k t' chs' out' → out = out') ∧
    (HtmlFinished k t chs out → HtmlFinished k t' chs' out' → out = out') := by
  refine ⟨fun h h' => ?_, fun h h' => ?_⟩
  · rw [htmlWrote_eq k t chs out h, htmlWrote_eq k t' chs' out' h', hsame]
  · rw [htmlFinished_eq k t chs out h, htmlFinished_eq k t' chs' out' h', hsame]

/-- C22: in particular splitting one write in two, with an empty write in any style between them, leaves
what has been written, and what has been written after `finish`, unchanged. -/
theorem C22_split_and_empty (k : FmtSink T) (t t' : T) (chs chs' : List Chunk) (s u : Str) (st st' : Style)
    (out out' : Str) :
    (HtmlWrote k t (chs ++ (s ++ u, st) :: chs') out →
      HtmlWrote k t' (chs ++ (s, st) :: ([], st') :: (u, st) :: chs') out' → out = out') ∧
    (HtmlFinished k t (chs ++ (s ++ u, st) :: chs') out →
      HtmlFinished k t' (chs ++ (s, st) :: ([], st') :: (u, st) :: chs') out' → out = out') :=
  C22_chunk_insensitive k t t' _ _ out out' (by simp [paint])

/-- C22 for `html::format`: programs that write the same styled characters have the same rendering. -/
theorem C22_format (args args' : Arguments) (log log' : List Chunk)
    (h : writes args.f Style.default FormatterArgs.default = (log, .ok ()))
    (h' : writes args'.f Style.default FormatterArgs.default = (log', .ok ()))
    (hsame : flatten log = flatten log') : htmlFormat args = htmlFormat args' := by
  rw [htmlFormat_eq, htmlFormat_eq, denote, denote, h, h', hsame]

/-- C22: text in the default style gets no markup: if moreover it has no special characters, the output is
the text itself. -/
theorem C22_unstyled_no_markup (k : FmtSink T) (t : T) (chs : List Chunk) (out : Str)
    (h : HtmlFinished k t chs out) (hd : ∀ ch ∈ chs, ch.1 ≠ [] → ch.2 = ⟨.Default, .Default, .Normal⟩) :
    (∃ ts, tokens out = some ts ∧ tagsAt 0 ts = []) ∧
    ((∀ ch ∈ chs, ∀ c ∈ ch.1, c ∉ ['<', '>', '&', '"', '\'']) → out = chs.flatMap Prod.fst) := by
  have hst : ∀ x ∈ flatten chs, x.2 = Style.default := by
    intro x hx
    simp only [flatten, List.mem_flatMap, paint, List.mem_map] at hx
    obtain ⟨ch, hch, c, hc, rfl⟩ := hx
    exact hd ch hch (by rintro e; rw [e] at hc; simp at hc)
  have key : ∀ u : Styled, (∀ x ∈ u, x.2 = Style.default) →
      renderTokens Style.default u = u.map (fun x => .char x.1) ∧
      renderWith htmlSwitch htmlEnc Style.default u = u.flatMap (fun x => htmlEnc x.1) ∧
      lastStyle Style.default u = Style.default := by
    intro u
    induction u with
    | nil => intro _; exact ⟨rfl, rfl, rfl⟩
    | cons x u ih =>
      intro hu
      obtain ⟨c, st⟩ := x
      have e : st = Style.default := hu (c, st) (by simp)
      subst e
      have ih := ih (fun y hy => hu y (by simp [hy]))
      simp [renderTokens, renderWith, lastStyle, ih, switchTokens, htmlSwitch_self]
  obtain ⟨k1, k2, k3⟩ := key _ hst
  constructor
  · refine ⟨_, (congrArg tokens (htmlFinished_eq k t chs out h)).trans (tokens_htmlRender _), ?_⟩
    rw [k1, k3]
    have : ∀ (u : Styled) n, tagsAt n (u.map (fun x => .char x.1) ++ switchTokens Style.default Style.default) = [] := by
      intro u
      induction u with
      | nil => intro _; rfl
      | cons x u ih => intro n; exact ih _
    exact this _ _
  · intro hc
    rw [htmlFinished_eq k t chs out h, htmlRender, k2, k3, htmlSwitch_self, List.append_nil]
    clear h hd hst k1 k2 k3
    induction chs with
    | nil => rfl
    | cons ch chs ih =>
      rw [flatten_cons, List.flatMap_append, List.flatMap_cons, ih (fun c hm => hc c (by simp [hm]))]
      congr 1
      have hc := hc ch (by simp)
      generalize ch.1 = s at hc ⊢
      induction s with
      | nil => rfl
      | cons c s ihs =>
        have h1 := hc c (by simp)
        have h2 := ihs (fun d hd => hc d (by simp [hd]))
        simp only [List.mem_cons, List.not_mem_nil, or_false, not_or] at h1
        simp only [paint, List.map_cons, List.flatMap_cons] at h2 ⊢
        rw [h2]
        simp [htmlEnc, htmlEntity, h1]

example : HtmlFinished stringSink StdString.new
    [(['a', '<'], Style.default), ([], ⟨.Red, .Red, .Bold⟩), (['b'], Style.default)] (str "a&lt;b") :=
  ⟨_, _, rfl, rfl, by decide⟩

/-! ## C23 -/

/-- The style attribute the writer emits for one character in the given style. -/
def AttributeOf (st : Style) (v : Str) : Prop :=
  HtmlWrote stringSink StdString.new [(['x'], st)] (str "<span style=" ++ v ++ str ">x")

theorem render_x (st : Style) (hd : st ≠ Style.default) :
    renderWith htmlSwitch htmlEnc Style.default (flatten [(['x'], st)]) =
      str "<span style=" ++ valueOf st ++ str ">x" := by
  have e2 : ¬ Style.default = st := fun h => hd h.symm
  have x : htmlEnc 'x' = ['x'] := rfl
  have c : htmlClose Style.default = [] := rfl
  have g : str ">x" = str ">" ++ ['x'] := rfl
  have f : flatten [(['x'], st)] = [('x', st)] := rfl
  rw [f, renderWith, renderWith, htmlSwitch_eq, if_neg e2, if_neg hd, x, c, g]
  simp only [List.append_assoc, List.nil_append, List.append_nil]

/-- C23: every styled text gets a style attribute that is legal unquoted, and different styles get different
attributes. -/
theorem C23_attribute_legal (st : Style) (h : st ≠ ⟨.Default, .Default, .Normal⟩) :
    ∃ v, AttributeOf st v ∧ legalValue v = true := by
  have hd : st ≠ Style.default := h
  refine ⟨valueOf st, ?_, legalValue_valueOf st hd⟩
  have h2 := (htmlFinished_exists stringSink stringSink_accepting StdString.new [(['x'], st)]).1
  rwa [render_x st hd] at h2

theorem C23_attribute_injective (st st' : Style) (v : Str)
    (h : AttributeOf st v) (h' : AttributeOf st' v) (hv : st ≠ ⟨.Default, .Default, .Normal⟩)
    (hv' : st' ≠ ⟨.Default, .Default, .Normal⟩) : st = st' := by
  have key : ∀ s : Style, s ≠ ⟨.Default, .Default, .Normal⟩ → AttributeOf s v → v = valueOf s := by
    intro s hs hh
    have e := htmlWrote_eq _ _ _ _ hh
    rw [render_x s hs, List.append_assoc, List.append_assoc] at e
    exact List.append_cancel_right (List.append_cancel_left e)
  have e1 := styleAttr_valueOf st hv
  have e2 := styleAttr_valueOf st' hv'
  rw [← key st hv h] at e1
  rw [← key st' hv' h', e1] at e2
  exact Option.some.inj e2

example : AttributeOf ⟨.BrightWhite, .Default, .Faint⟩ (str "color:#ffffff;font-weight:lighter") :=
  ⟨_, rfl, by decide⟩

/-- A limit of C23 worth knowing: different attributes do not always look different. `Blue` and
`BrightBlue` (likewise yellow, magenta, cyan and white) get different values for the same colour. -/
theorem C23_same_look_counterexample :
    ∃ v v', AttributeOf ⟨.Blue, .Default, .Normal⟩ (str "color:" ++ v) ∧
      AttributeOf ⟨.BrightBlue, .Default, .Normal⟩ (str "color:" ++ v') ∧
      v ≠ v' ∧ cssRgb v = cssRgb v' ∧ cssRgb v ≠ none :=
  ⟨str "blue", str "#0000ff", ⟨_, rfl, by decide⟩, ⟨_, rfl, by decide⟩, by decide, by decide, by decide⟩

end Stylish.Props
