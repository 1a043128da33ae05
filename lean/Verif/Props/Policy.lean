import Verif.Spec.Policy
import Verif.Props.Css
/-
C115: pages on which only some styles count.
-/

namespace Stylish.Props

open Spec Browser

namespace Policy

open Css

variable {colors : Colors} {policy : Css.Policy}

theorem span_valueOf (hc : colors.Standard) (base : Css.Look) (st : Style) (h : st ≠ Style.default) :
    Css.spanUnder colors policy base [(str "style", valueOf st)] = some (lookUnder policy base st) := by
  have e : [(str "style", valueOf st)].lookup (str "style") = some (valueOf st) := by simp [List.lookup]
  unfold Css.spanUnder
  rw [e]
  simp only [Look.declarations_valueOf hc st h, Option.map_some, List.filter_append, List.foldl_append]
  obtain ⟨f, b, i⟩ := st
  have hr : ∀ (x : Rgb) (c : Color), c ≠ .Default → Css.rgb ⟨0, 0, 0⟩ c = Css.rgb x c := by
    intro x c hc; cases c <;> first | exact absurd rfl hc | rfl
  have h1 : ∀ look : Css.Look, look.color = base.color →
      ((if f = Color.Default then [] else [Declaration.color (.rgb (Css.rgb ⟨0, 0, 0⟩ f))]).filter policy).foldl (apply base) look =
        { look with color := if policy (.color (.rgb (Css.rgb base.color f))) then Css.rgb base.color f else base.color } := by
    intro look hl
    by_cases e1 : f = .Default
    · subst e1
      simp [show ∀ x, Css.rgb x .Default = x from fun _ => rfl, ← hl]
    · rw [if_neg e1, hr base.color f e1]
      cases hp : policy (.color (.rgb (Css.rgb base.color f)))
      · simp only [List.filter, hp, List.foldl_nil, Bool.false_eq_true, if_false]
        rw [← hl]
      · simp [List.filter, hp, apply, ColorValue.over]
  have h2 : ∀ look : Css.Look, look.behind = base.behind →
      ((if b = Color.Default then [] else [Declaration.backgroundColor (.rgb (Css.rgb ⟨0, 0, 0⟩ b))]).filter policy).foldl (apply base) look =
        { look with behind := if policy (.backgroundColor (.rgb (Css.rgb base.behind b))) then Css.rgb base.behind b else base.behind } := by
    intro look hl
    by_cases e1 : b = .Default
    · subst e1
      simp [show ∀ x, Css.rgb x .Default = x from fun _ => rfl, ← hl]
    · rw [if_neg e1, hr base.behind b e1]
      cases hp : policy (.backgroundColor (.rgb (Css.rgb base.behind b)))
      · simp only [List.filter, hp, List.foldl_nil, Bool.false_eq_true, if_false]
        rw [← hl]
      · simp [List.filter, hp, apply, ColorValue.over]
  show some (List.foldl (apply base) (List.foldl (apply base) (List.foldl (apply base) base (List.filter policy
    (if f = Color.Default then [] else [Declaration.color (.rgb (Css.rgb ⟨0, 0, 0⟩ f))]))) (List.filter policy
    (if b = Color.Default then [] else [Declaration.backgroundColor (.rgb (Css.rgb ⟨0, 0, 0⟩ b))]))) _) = _
  have h2' := fun x => h2 ⟨x, base.behind, base.weight⟩ rfl
  rw [h1 base rfl, h2']
  cases i with
  | Normal => simp [lookUnder]
  | Bold =>
    cases hp : policy (.fontWeight .bolder) <;>
      simp [lookUnder, List.filter, hp, Look.intensityValue, apply, Css.weight]
  | Faint =>
    cases hp : policy (.fontWeight .lighter) <;>
      simp [lookUnder, List.filter, hp, Look.intensityValue, apply, Css.weight]

/-- The looks of the open spans when the current style is `cur`. -/
def stack (policy : Css.Policy) (base : Css.Look) (cur : Style) : List Css.Look :=
  if cur = Style.default then [] else [lookUnder policy base cur]

theorem lookUnder_default (base : Css.Look) : lookUnder policy base Style.default = base := by
  simp [lookUnder, Style.default, show (default : Color) = .Default from rfl, show (default : Intensity) = .Normal from rfl,
    show ∀ x, Css.rgb x .Default = x from fun _ => rfl]

theorem stack_head (base : Css.Look) (st : Style) : (stack policy base st).headD base = lookUnder policy base st := by
  unfold stack
  split
  · rename_i h; rw [h, lookUnder_default]; rfl
  · rfl

theorem build_switch (hc : colors.Standard) (base : Css.Look) (cur st : Style) (ts : List Browser.Token) :
    Css.buildUnder colors policy base (stack policy base cur) ((switchTokens cur st).flatMap browserTokens ++ ts) =
      Css.buildUnder colors policy base (stack policy base st) ts := by
  unfold switchTokens
  by_cases h : cur = st
  · subst h; simp
  · rw [if_neg h, List.flatMap_append, List.append_assoc]
    have h1 : ∀ us, Css.buildUnder colors policy base (stack policy base cur) ((closeTokens cur).flatMap browserTokens ++ us) =
        Css.buildUnder colors policy base [] us := by
      intro us
      unfold stack closeTokens
      by_cases h : cur = Style.default
      · simp [h]
      · simp [h, browserTokens, Css.buildUnder]
    rw [h1]
    unfold openTokens stack
    by_cases h2 : st = Style.default
    · simp [h2]
    · simp only [h2, if_false, browserTokens, List.flatMap_cons, List.flatMap_nil, List.append_nil, List.cons_append,
        List.nil_append, Css.buildUnder, if_true, List.headD_nil, span_valueOf hc base st h2, Option.bind_some]

theorem build_render (hc : colors.Standard) (base : Css.Look) (t : Styled) : ∀ (cur : Style) (ts : List Browser.Token),
    Css.buildUnder colors policy base (stack policy base cur) ((renderTokens cur t).flatMap browserTokens ++ ts) =
      (Css.buildUnder colors policy base (stack policy base (lastStyle cur t)) ts).map
        ((noNul t).map (fun x => (x.1, lookUnder policy base x.2)) ++ ·) := by
  induction t with
  | nil => intro cur ts; simp [renderTokens, lastStyle, noNul]
  | cons x t ih =>
    intro cur ts
    obtain ⟨c, st⟩ := x
    rw [renderTokens, List.flatMap_append, List.append_assoc, build_switch hc, List.flatMap_cons, List.append_assoc,
      lastStyle]
    by_cases h0 : c = '\x00'
    · simp [browserTokens, h0, Css.buildUnder, ih, noNul, Function.comp_def]
    · simp [browserTokens, h0, Css.buildUnder, ih, noNul, Function.comp_def, -List.headD_eq_head?_getD, stack_head]

theorem all_span (parent : Css.Look) (attrs : List (Str × Str)) :
    Css.spanUnder colors (fun _ => true) parent attrs = Css.span colors parent attrs := by
  have e : ∀ ds : List Declaration, ds.filter (fun _ => true) = ds := fun ds => List.filter_eq_self.2 fun _ _ => rfl
  unfold Css.spanUnder Css.span
  cases attrs.lookup (str "style") with
  | none => rfl
  | some v => simp only [e]

theorem all_build (base : Css.Look) (ts : List Browser.Token) : ∀ s,
    Css.buildUnder colors (fun _ => true) base s ts = Css.build colors base s ts := by
  induction ts with
  | nil => intro s; simp [Css.buildUnder, Css.build]
  | cons t ts ih => intro s; cases t <;> simp [Css.buildUnder, Css.build, ih, all_span]

end Policy

section
variable {T : Type} [FmtWrite T]

/-- C115: on a page on which only some declarations count, every character is shown, and each part of its style that counts looks
as it says; the parts that do not look as on the page around, never as in the text before. -/
theorem C115_looks (names : Names) (hn : names.Standard) (colors : Css.Colors) (hc : colors.Standard) (policy : Css.Policy)
    (k : FmtSink T) (t : T) (chs : List Chunk) (out : Str) (h : HtmlFinished k t chs out ∨ HtmlWrote k t chs out)
    (base : Css.Look) :
    Css.looksUnder names colors policy base out =
      some ((visible (flatten chs)).map fun x => (x.1, Css.lookUnder policy base x.2)) := by
  unfold Css.looksUnder tokenize
  have e0 : Policy.stack policy base Style.default = [] := rfl
  rcases h with h | h
  · have e := tokenize_htmlRender hn (lineBreaks (flatten chs)) []
    rw [List.append_nil, show Browser.tokens names 0 .data [] = [] from rfl, List.append_nil] at e
    rw [htmlFinished_eq k t chs out h, newlines_htmlRender, e, List.flatMap_append, ← e0, Policy.build_render hc]
    have e2 := Policy.build_switch (policy := policy) hc base (lastStyle Style.default (lineBreaks (flatten chs))) Style.default []
    rw [List.append_nil] at e2
    rw [e2]
    simp [Css.buildUnder, visible]
  · have e := tokenize_render hn (lineBreaks (flatten chs)) []
    have e1 := Policy.build_render (policy := policy) hc base (lineBreaks (flatten chs)) Style.default []
    rw [List.append_nil, show Browser.tokens names 0 .data [] = [] from rfl, List.append_nil] at e
    rw [List.append_nil] at e1
    rw [htmlWrote_eq k t chs out h, newlines_renderWith, e, ← e0, e1]
    simp [Css.buildUnder, visible]

/-- C115: in particular the text is all there, whatever counts. -/
theorem C115_text (names : Names) (hn : names.Standard) (colors : Css.Colors) (hc : colors.Standard) (policy : Css.Policy)
    (k : FmtSink T) (t : T) (chs : List Chunk) (out : Str) (h : HtmlFinished k t chs out ∨ HtmlWrote k t chs out)
    (base : Css.Look) :
    (Css.looksUnder names colors policy base out).map (List.map Prod.fst) = some (text (visible (flatten chs))) := by
  rw [C115_looks names hn colors hc policy k t chs out h base]
  simp [text]

/-- C115: if nothing counts, it is the text on the page. -/
theorem C115_none (names : Names) (hn : names.Standard) (colors : Css.Colors) (hc : colors.Standard)
    (k : FmtSink T) (t : T) (chs : List Chunk) (out : Str) (h : HtmlFinished k t chs out ∨ HtmlWrote k t chs out)
    (base : Css.Look) :
    Css.looksUnder names colors (fun _ => false) base out = some ((visible (flatten chs)).map fun x => (x.1, base)) := by
  rw [C115_looks names hn colors hc _ k t chs out h base]
  congr 1
  refine List.map_congr_left fun x _ => ?_
  obtain ⟨c, f, b, i⟩ := x
  cases i <;> simp [Css.lookUnder]

end

/-- C115: the page of Spec/Css is the one where everything counts. -/
theorem C115_all (names : Names) (colors : Css.Colors) (base : Css.Look) (page : Str) :
    Css.looksUnder names colors (fun _ => true) base page = Css.looks names colors base page :=
  Policy.all_build base _ _

/-- C115: what is seen in each of the usual cases. -/
theorem C115_usual (base : Css.Look) (st : Style) :
    Css.lookUnder (fun _ => true) base st = Css.lookOf base st ∧
    Css.lookUnder Css.noBackgrounds base st = { Css.lookOf base st with behind := base.behind } ∧
    Css.lookUnder Css.noColors base st = ⟨base.color, base.behind, Css.weight base.weight st.intensity⟩ := by
  obtain ⟨f, b, i⟩ := st
  cases i <;> simp [Css.lookUnder, Css.lookOf, Css.noBackgrounds, Css.noColors, Css.weight]

/-! ### Samples -/

/-- The hypotheses are met; printed, in the colours of the reader, and without style attributes. -/
example : HtmlFinished stringSink StdString.new htmlSample htmlSampleOut ∧
    Css.looksUnder someNames someColors Css.noBackgrounds blackOnWhite htmlSampleOut =
      some ((flatten htmlSample).map fun x => (x.1, Css.lookUnder Css.noBackgrounds blackOnWhite x.2)) := by
  refine ⟨htmlSample_finished, ?_⟩
  rw [C115_looks someNames someNames_standard someColors someColors_standard _ _ _ _ _ (.inl htmlSample_finished)]
  decide +kernel

example :
    let page := str "<span style=color:red;background-color:blue;font-weight:bolder>a</span>b"
    Css.looksUnder someNames someColors Css.noBackgrounds blackOnWhite page =
      some [('a', ⟨⟨255, 0, 0⟩, ⟨255, 255, 255⟩, 700⟩), ('b', blackOnWhite)] ∧
    Css.looksUnder someNames someColors Css.noColors blackOnWhite page =
      some [('a', ⟨⟨0, 0, 0⟩, ⟨255, 255, 255⟩, 700⟩), ('b', blackOnWhite)] ∧
    Css.looksUnder someNames someColors (fun _ => false) blackOnWhite page =
      some [('a', blackOnWhite), ('b', blackOnWhite)] := by
  decide +kernel

/-- C115: text that was to be read by its background is not: white text on blue is white on white when it is printed. -/
theorem C115_printed_counterexample (names : Names) (hn : names.Standard) (colors : Css.Colors) (hc : colors.Standard) :
    ∃ out, HtmlFinished stringSink StdString.new [(['x'], ⟨.White, .Blue, .Normal⟩)] out ∧
      Css.looksUnder names colors Css.noBackgrounds blackOnWhite out =
        some [('x', ⟨⟨255, 255, 255⟩, ⟨255, 255, 255⟩, 400⟩)] := by
  obtain ⟨out, h⟩ : ∃ out, HtmlFinished stringSink StdString.new [(['x'], ⟨.White, .Blue, .Normal⟩)] out :=
    ⟨_, (htmlFinished_exists stringSink stringSink_accepting StdString.new _).2⟩
  refine ⟨out, h, ?_⟩
  rw [C115_looks names hn colors hc _ _ _ _ _ (.inl h)]
  decide +kernel

end Stylish.Props
