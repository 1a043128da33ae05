import Verif.Spec.Css
import Verif.Props.Browser
/-
C73: what the HTML output looks like.
-/

namespace Stylish.Props

open Spec Browser

namespace Look

open Css

variable {colors : Colors}

theorem split_plain (sep : Char) (s : Str) (h : sep ∉ s) : split sep s = [s] := by
  induction s with
  | nil => rfl
  | cons c s ih =>
    have hc : c ≠ sep := by rintro rfl; simp at h
    rw [split, if_neg hc, ih (by simp at h; exact h.2)]

theorem split_cons (sep : Char) (s rest : Str) (h : sep ∉ s) : split sep (s ++ sep :: rest) = s :: split sep rest := by
  induction s with
  | nil => rw [List.nil_append, split, if_pos rfl]
  | cons c s ih =>
    have hc : c ≠ sep := by rintro rfl; simp at h
    rw [List.cons_append, split, if_neg hc, ih (by simp at h; exact h.2)]

/-- A segment as the code writes them: no white space, nothing special, a colon inside. -/
def Neat (s : Str) : Prop :=
  s ≠ [] ∧ s.any special.contains = false ∧ ';' ∉ s ∧ trim s = s

instance (s : Str) : Decidable (Neat s) := by unfold Neat; infer_instance

theorem neat_foreground (c : Color) : Neat (str (HtmlUtil.foreground c)) := by cases c <;> decide +kernel
theorem neat_background (c : Color) : Neat (str (HtmlUtil.background c)) := by cases c <;> decide +kernel
theorem neat_intensity (i : Intensity) : Neat (str (HtmlUtil.intensity i)) := by cases i <;> decide +kernel

theorem hex (v : String) (x : Rgb) (h : hexColor (str v) = some x) (hi : lower ('#' :: str v) ≠ str "inherit") :
    colorValue colors ('#' :: str v) = some (.rgb x) := by
  rw [colorValue, if_neg hi]
  simp only [h]
  rfl

theorem decl_foreground (hc : colors.Standard) (c : Color) (h : c ≠ .Default) :
    Css.declaration colors (str (HtmlUtil.foreground c)) = some (.color (.rgb (Css.rgb ⟨0, 0, 0⟩ c))) := by
  have key : ∀ (v : Str) (x : Rgb), ':' ∉ v → trim v = v → colorValue colors v = some (.rgb x) →
      Css.declaration colors (str "color" ++ ':' :: v) = some (.color (.rgb x)) := by
    intro v x hv ht hx
    rw [Css.declaration, split_cons ':' _ _ (by decide), split_plain ':' v hv]
    simp only [ht, hx]
    rfl
  have named : ∀ (v : Str) (x : Rgb), colors v = some x → lower v = v → v.head? ≠ some '#' → v ≠ str "inherit" →
      colorValue colors v = some (.rgb x) := by
    intro v x hx hl hh hi
    unfold colorValue
    rw [hl, if_neg hi]
    split
    · simp at hh
    · rw [hx]; rfl
  cases c with
  | Default => exact absurd rfl h
  | Black => exact key (str "black") _ (by decide) (by decide +kernel) (named _ _ hc.black (by decide +kernel) (by decide) (by decide))
  | Red => exact key (str "red") _ (by decide) (by decide +kernel) (named _ _ hc.red (by decide +kernel) (by decide) (by decide))
  | Green => exact key (str "green") _ (by decide) (by decide +kernel) (named _ _ hc.green (by decide +kernel) (by decide) (by decide))
  | Yellow => exact key (str "yellow") _ (by decide) (by decide +kernel) (named _ _ hc.yellow (by decide +kernel) (by decide) (by decide))
  | Blue => exact key (str "blue") _ (by decide) (by decide +kernel) (named _ _ hc.blue (by decide +kernel) (by decide) (by decide))
  | Magenta => exact key (str "magenta") _ (by decide) (by decide +kernel) (named _ _ hc.magenta (by decide +kernel) (by decide) (by decide))
  | Cyan => exact key (str "cyan") _ (by decide) (by decide +kernel) (named _ _ hc.cyan (by decide +kernel) (by decide) (by decide))
  | White => exact key (str "white") _ (by decide) (by decide +kernel) (named _ _ hc.white (by decide +kernel) (by decide) (by decide))
  | BrightBlack => exact key (str "gray") _ (by decide) (by decide +kernel) (named _ _ hc.gray (by decide +kernel) (by decide) (by decide))
  | BrightRed => exact key (str "#af0000") _ (by decide) (by decide +kernel) (hex "af0000" _ (by decide +kernel) (by decide +kernel))
  | BrightGreen => exact key (str "#00ff00") _ (by decide) (by decide +kernel) (hex "00ff00" _ (by decide +kernel) (by decide +kernel))
  | BrightYellow => exact key (str "#ffff00") _ (by decide) (by decide +kernel) (hex "ffff00" _ (by decide +kernel) (by decide +kernel))
  | BrightBlue => exact key (str "#0000ff") _ (by decide) (by decide +kernel) (hex "0000ff" _ (by decide +kernel) (by decide +kernel))
  | BrightMagenta => exact key (str "#ff00ff") _ (by decide) (by decide +kernel) (hex "ff00ff" _ (by decide +kernel) (by decide +kernel))
  | BrightCyan => exact key (str "#00ffff") _ (by decide) (by decide +kernel) (hex "00ffff" _ (by decide +kernel) (by decide +kernel))
  | BrightWhite => exact key (str "#ffffff") _ (by decide) (by decide +kernel) (hex "ffffff" _ (by decide +kernel) (by decide +kernel))

theorem decl_background (hc : colors.Standard) (c : Color) (h : c ≠ .Default) :
    Css.declaration colors (str (HtmlUtil.background c)) = some (.backgroundColor (.rgb (Css.rgb ⟨0, 0, 0⟩ c))) := by
  have key : ∀ (v : Str) (x : Rgb), ':' ∉ v → trim v = v → colorValue colors v = some (.rgb x) →
      Css.declaration colors (str "background-color" ++ ':' :: v) = some (.backgroundColor (.rgb x)) := by
    intro v x hv ht hx
    rw [Css.declaration, split_cons ':' _ _ (by decide), split_plain ':' v hv]
    simp only [ht, hx]
    rfl
  have named : ∀ (v : Str) (x : Rgb), colors v = some x → lower v = v → v.head? ≠ some '#' → v ≠ str "inherit" →
      colorValue colors v = some (.rgb x) := by
    intro v x hx hl hh hi
    unfold colorValue
    rw [hl, if_neg hi]
    split
    · simp at hh
    · rw [hx]; rfl
  cases c with
  | Default => exact absurd rfl h
  | Black => exact key (str "black") _ (by decide) (by decide +kernel) (named _ _ hc.black (by decide +kernel) (by decide) (by decide))
  | Red => exact key (str "red") _ (by decide) (by decide +kernel) (named _ _ hc.red (by decide +kernel) (by decide) (by decide))
  | Green => exact key (str "green") _ (by decide) (by decide +kernel) (named _ _ hc.green (by decide +kernel) (by decide) (by decide))
  | Yellow => exact key (str "yellow") _ (by decide) (by decide +kernel) (named _ _ hc.yellow (by decide +kernel) (by decide) (by decide))
  | Blue => exact key (str "blue") _ (by decide) (by decide +kernel) (named _ _ hc.blue (by decide +kernel) (by decide) (by decide))
  | Magenta => exact key (str "magenta") _ (by decide) (by decide +kernel) (named _ _ hc.magenta (by decide +kernel) (by decide) (by decide))
  | Cyan => exact key (str "cyan") _ (by decide) (by decide +kernel) (named _ _ hc.cyan (by decide +kernel) (by decide) (by decide))
  | White => exact key (str "white") _ (by decide) (by decide +kernel) (named _ _ hc.white (by decide +kernel) (by decide) (by decide))
  | BrightBlack => exact key (str "gray") _ (by decide) (by decide +kernel) (named _ _ hc.gray (by decide +kernel) (by decide) (by decide))
  | BrightRed => exact key (str "#af0000") _ (by decide) (by decide +kernel) (hex "af0000" _ (by decide +kernel) (by decide +kernel))
  | BrightGreen => exact key (str "#00ff00") _ (by decide) (by decide +kernel) (hex "00ff00" _ (by decide +kernel) (by decide +kernel))
  | BrightYellow => exact key (str "#ffff00") _ (by decide) (by decide +kernel) (hex "ffff00" _ (by decide +kernel) (by decide +kernel))
  | BrightBlue => exact key (str "#0000ff") _ (by decide) (by decide +kernel) (hex "0000ff" _ (by decide +kernel) (by decide +kernel))
  | BrightMagenta => exact key (str "#ff00ff") _ (by decide) (by decide +kernel) (hex "ff00ff" _ (by decide +kernel) (by decide +kernel))
  | BrightCyan => exact key (str "#00ffff") _ (by decide) (by decide +kernel) (hex "00ffff" _ (by decide +kernel) (by decide +kernel))
  | BrightWhite => exact key (str "#ffffff") _ (by decide) (by decide +kernel) (hex "ffffff" _ (by decide +kernel) (by decide +kernel))

def intensityValue : Intensity → WeightValue
  | .Normal => .inherit
  | .Bold => .bolder
  | .Faint => .lighter

theorem decl_intensity (i : Intensity) : Css.declaration colors (str (HtmlUtil.intensity i)) =
    some (.fontWeight (intensityValue i)) := by
  have key : ∀ (v : Str) (x : WeightValue), ':' ∉ v → trim v = v → weightValue v = some x →
      Css.declaration colors (str "font-weight" ++ ':' :: v) = some (.fontWeight x) := by
    intro v x hv ht hx
    rw [Css.declaration, split_cons ':' _ _ (by decide), split_plain ':' v hv]
    simp only [ht, hx]
    rfl
  cases i with
  | Normal => exact key (str "inherit") _ (by decide) (by decide +kernel) (by decide +kernel)
  | Bold => exact key (str "bolder") _ (by decide) (by decide +kernel) (by decide +kernel)
  | Faint => exact key (str "lighter") _ (by decide) (by decide +kernel) (by decide +kernel)

theorem neat_segments (d : StyleDiff) : ∀ p ∈ Html.segments d, Neat p := by
  obtain ⟨f, b, i⟩ := d
  cases f <;> cases b <;> cases i <;>
    simp [Html.segments, neat_foreground, neat_background, neat_intensity]

theorem split_value (segs : List Str) (hne : segs ≠ []) (h : ∀ q ∈ segs, Neat q) :
    split ';' (htmlValue segs) = segs := by
  cases segs with
  | nil => exact absurd rfl hne
  | cons p ps =>
    simp only [htmlValue]
    clear hne
    induction ps generalizing p with
    | nil => simpa [htmlRest] using split_plain ';' p (h p (by simp)).2.2.1
    | cons q ps ih =>
      have e : htmlRest (q :: ps) = ';' :: (q ++ htmlRest ps) := by simp [htmlRest]
      rw [e, split_cons _ _ _ (h p (by simp)).2.2.1, ih q (fun r hr => h r (List.mem_cons_of_mem _ hr))]

theorem plain_value (segs : List Str) (h : ∀ q ∈ segs, Neat q) :
    (htmlValue segs).any special.contains = false := by
  cases segs with
  | nil => rfl
  | cons p ps =>
    simp only [htmlValue, htmlRest, List.any_append, Bool.or_eq_false_iff]
    refine ⟨(h p (by simp)).2.1, ?_⟩
    rw [List.any_flatMap]
    simp only [List.any_eq_false]
    intro q hq
    have h1 := (h q (by simp [hq])).2.1
    rw [List.any_cons, h1]
    decide

/-- The declarations of a style. -/
theorem declarations_valueOf (hc : colors.Standard) (st : Style) (h : st ≠ Style.default) :
    Css.declarations colors (valueOf st) = some
      ((if st.foreground = .Default then [] else [.color (.rgb (Css.rgb ⟨0, 0, 0⟩ st.foreground))]) ++
       (if st.background = .Default then [] else [.backgroundColor (.rgb (Css.rgb ⟨0, 0, 0⟩ st.background))]) ++
       (if st.intensity = .Normal then [] else [.fontWeight (intensityValue st.intensity)])) := by
  have hn := neat_segments (st.diffFrom Style.default)
  unfold Css.declarations valueOf
  rw [if_neg (by rw [plain_value _ hn]; decide), split_value _ (segments_ne_nil st h) hn]
  have e1 : (Html.segments (st.diffFrom Style.default)).map trim = Html.segments (st.diffFrom Style.default) := by
    conv => rhs; rw [← List.map_id (Html.segments (st.diffFrom Style.default))]
    exact List.map_congr_left fun q hq => (hn q hq).2.2.2
  rw [e1, List.filter_eq_self.2 (fun q hq => by simpa using (hn q hq).1)]
  obtain ⟨f, b, i⟩ := st
  have d1 : (Inhabited.default : Color) = .Default := rfl
  have d3 : (Inhabited.default : Intensity) = .Normal := rfl
  simp only [Html.segments, Style.diffFrom, diffField, Style.default, d1, d3]
  have c1 : ∀ f, (if Color.Default = f then none else some f) =
      if f = Color.Default then none else some f := by intro f; cases f <;> rfl
  have c3 : ∀ i, (if Intensity.Normal = i then none else some i) =
      if i = Intensity.Normal then none else some i := by intro i; cases i <;> rfl
  rw [c1, c1, c3]
  clear h c1 c3 hn e1
  by_cases e1 : f = .Default <;> by_cases e2 : b = .Default <;> by_cases e3 : i = .Normal <;>
    simp [e1, e2, e3, decl_foreground hc, decl_background hc, decl_intensity]

theorem span_valueOf (hc : colors.Standard) (base : Css.Look) (st : Style) (h : st ≠ Style.default) :
    Css.span colors base [(str "style", valueOf st)] = some (lookOf base st) := by
  have e : [(str "style", valueOf st)].lookup (str "style") = some (valueOf st) := by simp [List.lookup]
  unfold Css.span
  rw [e]
  simp only [declarations_valueOf hc st h, Option.map_some]
  obtain ⟨f, b, i⟩ := st
  have hr : ∀ (x : Rgb) (c : Color), c ≠ .Default → Css.rgb ⟨0, 0, 0⟩ c = Css.rgb x c := by
    intro x c hc; cases c <;> first | exact absurd rfl hc | rfl
  have hw : ∀ (n : Nat) (i : Intensity), (intensityValue i).over n = Css.weight n i := by
    intro n i; cases i <;> rfl
  by_cases e1 : f = .Default <;> by_cases e2 : b = .Default <;> by_cases e3 : i = .Normal <;>
    simp_all [Css.apply, lookOf, ColorValue.over, show ∀ x, Css.rgb x .Default = x from fun _ => rfl,
      show ∀ n, Css.weight n .Normal = n from fun _ => rfl, hr base.color f, hr base.behind b]

/-- The looks of the open spans when the current style is `cur`. -/
def stack (base : Css.Look) (cur : Style) : List Css.Look := if cur = Style.default then [] else [lookOf base cur]

theorem lookOf_default (base : Css.Look) : lookOf base Style.default = base := rfl

theorem stack_head (base : Css.Look) (st : Style) : (stack base st).headD base = lookOf base st := by
  unfold stack
  split
  · rename_i h; rw [h]; rfl
  · rfl

theorem build_switch (hc : colors.Standard) (base : Css.Look) (cur st : Style) (ts : List Browser.Token) :
    Css.build colors base (stack base cur) ((switchTokens cur st).flatMap browserTokens ++ ts) =
      Css.build colors base (stack base st) ts := by
  unfold switchTokens
  by_cases h : cur = st
  · subst h; simp
  · rw [if_neg h, List.flatMap_append, List.append_assoc]
    have h1 : ∀ us, Css.build colors base (stack base cur) ((closeTokens cur).flatMap browserTokens ++ us) =
        Css.build colors base [] us := by
      intro us
      unfold stack closeTokens
      by_cases h : cur = Style.default
      · simp [h]
      · simp [h, browserTokens, Css.build]
    rw [h1]
    unfold openTokens stack
    by_cases h2 : st = Style.default
    · simp [h2]
    · simp only [h2, if_false, browserTokens, List.flatMap_cons, List.flatMap_nil, List.append_nil, List.cons_append,
        List.nil_append, Css.build, if_true, List.headD_nil, span_valueOf hc base st h2, Option.bind_some]

theorem build_render (hc : colors.Standard) (base : Css.Look) (t : Styled) : ∀ (cur : Style) (ts : List Browser.Token),
    Css.build colors base (stack base cur) ((renderTokens cur t).flatMap browserTokens ++ ts) =
      (Css.build colors base (stack base (lastStyle cur t)) ts).map
        ((noNul t).map (fun x => (x.1, lookOf base x.2)) ++ ·) := by
  induction t with
  | nil => intro cur ts; simp [renderTokens, lastStyle, noNul]
  | cons x t ih =>
    intro cur ts
    obtain ⟨c, st⟩ := x
    rw [renderTokens, List.flatMap_append, List.append_assoc, build_switch hc, List.flatMap_cons, List.append_assoc,
      lastStyle]
    by_cases h0 : c = '\x00'
    · simp [browserTokens, h0, Css.build, ih, noNul, Function.comp_def]
    · simp [browserTokens, h0, Css.build, ih, noNul, Function.comp_def, -List.headD_eq_head?_getD, stack_head]

end Look

section
variable {T : Type} [FmtWrite T]

/-- C73: on a page that looks like `base`, the text looks exactly as its styles say: every character in the red,
green and blue of its foreground on those of its background, or those of the page, and in the weight of the page or
one step bolder or lighter. It makes no difference whether `finish` was called. -/
theorem C73_looks (names : Names) (hn : names.Standard) (colors : Css.Colors) (hc : colors.Standard) (k : FmtSink T)
    (t : T) (chs : List Chunk) (out : Str) (h : HtmlFinished k t chs out ∨ HtmlWrote k t chs out) (base : Css.Look) :
    Css.looks names colors base out =
      some ((visible (flatten chs)).map fun x => (x.1, Css.lookOf base x.2)) := by
  unfold Css.looks tokenize
  have e0 : Look.stack base Style.default = [] := rfl
  rcases h with h | h
  · have e := tokenize_htmlRender hn (lineBreaks (flatten chs)) []
    rw [List.append_nil, show Browser.tokens names 0 .data [] = [] from rfl, List.append_nil] at e
    rw [htmlFinished_eq k t chs out h, newlines_htmlRender, e, List.flatMap_append, ← e0, Look.build_render hc]
    have e2 := Look.build_switch hc base (lastStyle Style.default (lineBreaks (flatten chs))) Style.default []
    rw [List.append_nil] at e2
    rw [e2]
    simp [Css.build, visible]
  · have e := tokenize_render hn (lineBreaks (flatten chs)) []
    have e1 := Look.build_render hc base (lineBreaks (flatten chs)) Style.default []
    rw [List.append_nil, show Browser.tokens names 0 .data [] = [] from rfl, List.append_nil] at e
    rw [List.append_nil] at e1
    rw [htmlWrote_eq k t chs out h, newlines_renderWith, e, ← e0, e1]
    simp [Css.build, visible]

end

/-- C73: text in the default style looks like the page around it. -/
theorem C73_default (base : Css.Look) : Css.lookOf base ⟨.Default, .Default, .Normal⟩ = base := rfl

/-- C73: on a page of a weight between 100 and 900, and only there, bold text is bolder and faint text lighter than the
rest; so the three can be told apart. -/
theorem C73_weights (page : Nat) : (Css.weight page .Faint < Css.weight page .Normal ∧
    Css.weight page .Normal < Css.weight page .Bold) ↔ 100 < page ∧ page < 900 := by
  simp only [Css.weight, Css.WeightValue.over]
  repeat' split
  all_goals omega

/-- C73: everywhere, faint is not bolder and bold not lighter than the rest. -/
theorem C73_weights_weak (page : Nat) :
    Css.weight page .Faint ≤ Css.weight page .Normal ∧ Css.weight page .Normal ≤ Css.weight page .Bold := by
  simp only [Css.weight, Css.WeightValue.over]
  repeat' split
  all_goals omega

/-- C73: which colours look the same, apart from the default: the bright variants of yellow, blue, magenta, cyan and
white are no brighter. -/
theorem C73_same_color (page : Css.Rgb) (c d : Color) (hc : c ≠ .Default) (hd : d ≠ .Default) :
    Css.rgb page c = Css.rgb page d ↔ c = d ∨
      (c, d) ∈ [(.Yellow, .BrightYellow), (.Blue, .BrightBlue), (.Magenta, .BrightMagenta), (.Cyan, .BrightCyan),
        (.White, .BrightWhite)] ∨
      (d, c) ∈ [(.Yellow, .BrightYellow), (.Blue, .BrightBlue), (.Magenta, .BrightMagenta), (.Cyan, .BrightCyan),
        (.White, .BrightWhite)] := by
  cases c <;> first | exact absurd rfl hc | (cases d <;> first | exact absurd rfl hd | simp [Css.rgb])

/-! ### Samples and counterexamples -/

/-- Part of the table of CSS Color 4. -/
def someColors : Css.Colors := fun n =>
  [(str "black", ⟨0, 0, 0⟩), (str "red", ⟨255, 0, 0⟩), (str "green", ⟨0, 128, 0⟩), (str "yellow", ⟨255, 255, 0⟩),
   (str "blue", ⟨0, 0, 255⟩), (str "magenta", ⟨255, 0, 255⟩), (str "cyan", ⟨0, 255, 255⟩),
   (str "white", ⟨255, 255, 255⟩), (str "gray", ⟨128, 128, 128⟩), (str "rebeccapurple", ⟨102, 51, 153⟩)].lookup n

theorem someColors_standard : someColors.Standard :=
  ⟨by decide, by decide, by decide, by decide, by decide, by decide, by decide, by decide, by decide⟩

/-- A page in black on white, of normal weight. -/
def blackOnWhite : Css.Look := ⟨⟨0, 0, 0⟩, ⟨255, 255, 255⟩, 400⟩

/-- The hypotheses are met; and what the sample looks like. -/
example : HtmlFinished stringSink StdString.new htmlSample htmlSampleOut ∧
    Css.looks someNames someColors blackOnWhite htmlSampleOut =
      some ((flatten htmlSample).map fun x => (x.1, Css.lookOf blackOnWhite x.2)) := by
  refine ⟨htmlSample_finished, ?_⟩
  rw [C73_looks someNames someNames_standard someColors someColors_standard _ _ _ _ (.inl htmlSample_finished)]
  decide +kernel

/-- The page reads other things too: case and white space do not matter, the last declaration counts, spans may be
nested, and values are relative to the surrounding span. -/
example :
    Css.looks someNames someColors blackOnWhite
      (str "<span style='COLOR : #0F0 ;; color:RebeccaPurple'>a<span style='font-weight:bolder;color:inherit'>b<span style=font-weight:bolder>c</span></span></span>d") =
      some [('a', ⟨⟨102, 51, 153⟩, ⟨255, 255, 255⟩, 400⟩), ('b', ⟨⟨102, 51, 153⟩, ⟨255, 255, 255⟩, 700⟩),
        ('c', ⟨⟨102, 51, 153⟩, ⟨255, 255, 255⟩, 900⟩), ('d', blackOnWhite)] ∧
    Css.looks someNames someColors blackOnWhite (str "<span style='background-color:#af0000;font-weight:100'>a<span style=font-weight:lighter>b</span></span>") =
      some [('a', ⟨⟨0, 0, 0⟩, ⟨175, 0, 0⟩, 100⟩), ('b', ⟨⟨0, 0, 0⟩, ⟨175, 0, 0⟩, 100⟩)] ∧
    Css.looks someNames someColors blackOnWhite (str "<span style='color:rgb(1,2,3)'>a</span>") = none := by
  decide +kernel

/-- Different styles may look the same: yellow and bright yellow everywhere, and bold and normal on a page in the
heaviest weight, although the pages differ. -/
theorem C73_same_look_counterexample (names : Names) (hn : names.Standard) (colors : Css.Colors)
    (hc : colors.Standard) :
    (∃ out out', HtmlFinished stringSink StdString.new [(['x'], ⟨.Yellow, .Default, .Normal⟩)] out ∧
      HtmlFinished stringSink StdString.new [(['x'], ⟨.BrightYellow, .Default, .Normal⟩)] out' ∧ out ≠ out' ∧
      ∀ base, Css.looks names colors base out = Css.looks names colors base out') ∧
    (∃ out out', HtmlFinished stringSink StdString.new [(['x'], ⟨.Default, .Default, .Bold⟩)] out ∧
      HtmlFinished stringSink StdString.new [(['x'], Style.default)] out' ∧ out ≠ out' ∧
      ∀ base, base.weight = 900 → Css.looks names colors base out = Css.looks names colors base out') := by
  have ex := fun chs => (htmlFinished_exists stringSink stringSink_accepting StdString.new chs).2
  constructor
  · refine ⟨_, _, ex _, ex _, by decide +kernel, fun base => ?_⟩
    rw [C73_looks names hn colors hc _ _ _ _ (.inl (ex _)), C73_looks names hn colors hc _ _ _ _ (.inl (ex _))]
    rfl
  · refine ⟨_, _, ex _, ex _, by decide +kernel, fun base hb => ?_⟩
    rw [C73_looks names hn colors hc _ _ _ _ (.inl (ex _)), C73_looks names hn colors hc _ _ _ _ (.inl (ex _))]
    obtain ⟨a, b, w⟩ := base
    subst hb
    rfl

end Stylish.Props
