import Verif.Spec.Lines
import Verif.Props.Ansi
import Verif.Props.Html
/-
C60: markup does not change the lines of a text, nor any character that markup is not made of.
-/

namespace Stylish.Props

open Spec HtmlReader

variable {T : Type} [FmtWrite T]

/-! ### Lines -/

theorem lines_ne (s : Str) : lines s ≠ [] := by
  cases s with
  | nil => simp [lines]
  | cons c s => unfold lines; split <;> (try split) <;> simp

/-- Put a string in front of the first line. -/
def onFirst (a : Str) : List Str → List Str
  | [] => [a]
  | l :: ls => (a ++ l) :: ls

theorem lines_append (a b : Str) (h : '\n' ∉ a) : lines (a ++ b) = onFirst a (lines b) := by
  induction a with
  | nil => rcases hb : lines b with _ | ⟨l, ls⟩
           · exact absurd hb (lines_ne b)
           · simp [hb, onFirst]
  | cons c a ih =>
    have hc : c ≠ '\n' := fun e => h (by simp [e])
    have := ih (fun hm => h (by simp [hm]))
    rw [List.cons_append, lines, if_neg hc, this]
    rcases hb : lines b with _ | ⟨l, ls⟩ <;> simp [onFirst]

/-- Rendering, read line by line: if reading a line (`f`) skips style changes and undoes the encoding, and only
line feeds make line feeds, then the lines of the rendering read as the lines of the text. -/
theorem lines_render (sw : Style → Style → Str) (enc : Char → Str) (f : Str → Option Str) (ok : Char → Prop)
    (hsw : ∀ a b l, f (sw a b ++ l) = f l) (henc : ∀ c, ok c → ∀ l, f (enc c ++ l) = (f l).map (c :: ·))
    (hnil : f [] = some []) (hsw' : ∀ a b, '\n' ∉ sw a b) (henc' : ∀ c, c ≠ '\n' → '\n' ∉ enc c)
    (hnl : enc '\n' = ['\n']) (cur : Style) (t : Styled) (ht : ∀ x ∈ t, ok x.1) (a b : Style) :
    (lines (renderWith sw enc cur t ++ sw a b)).map f = (lines (text t)).map some := by
  induction t generalizing cur with
  | nil =>
    have := lines_append (sw a b) [] (hsw' a b)
    rw [List.append_nil] at this
    have h2 := hsw a b []
    simp only [renderWith, List.nil_append, this, lines, onFirst, text, List.map_cons, List.map_nil, h2, hnil]
  | cons x t ih =>
    obtain ⟨c, st⟩ := x
    have ih := ih st (fun y hy => ht y (List.mem_cons_of_mem _ hy))
    have e : text ((c, st) :: t) = c :: text t := rfl
    rw [renderWith, e, List.append_assoc, List.append_assoc, lines_append _ _ (hsw' cur st)]
    have hfirst : ∀ l, (onFirst (sw cur st) l).map f = if l = [] then [f []] else l.map f := by
      intro l
      cases l with
      | nil => have := hsw cur st []; rw [List.append_nil] at this; simp [onFirst, this]
      | cons y l => simp [onFirst, hsw]
    rw [hfirst, if_neg (lines_ne _)]
    by_cases hc : c = '\n'
    · subst hc
      rw [hnl, List.singleton_append, lines, if_pos rfl, lines, if_pos rfl]
      simp [hnil, ih]
    · rw [lines_append _ _ (henc' c hc), lines, if_neg hc]
      rcases h1 : lines (renderWith sw enc st t ++ sw a b) with _ | ⟨l, ls⟩
      · exact absurd h1 (lines_ne _)
      · rcases h2 : lines (text t) with _ | ⟨m, ms⟩
        · exact absurd h2 (lines_ne _)
        · rw [h1, h2] at ih
          simp only [List.map_cons, List.cons.injEq] at ih
          simp [onFirst, henc c (ht (c, st) (List.mem_cons_self ..)), ih.1, ih.2]

/-- Characters that neither style changes nor encodings are made of pass through in order. -/
theorem filter_render (sw : Style → Style → Str) (enc : Char → Str) (p : Char → Bool)
    (hsw : ∀ a b, ∀ c ∈ sw a b, p c = true)
    (henc : ∀ c, (enc c).filter (fun c => !p c) = [c].filter (fun c => !p c)) (cur : Style) (t : Styled) :
    (renderWith sw enc cur t).filter (fun c => !p c) = (text t).filter (fun c => !p c) := by
  induction t generalizing cur with
  | nil => rfl
  | cons x t ih =>
    obtain ⟨c, st⟩ := x
    have hz : (sw cur st).filter (fun c => !p c) = [] := by
      rw [List.filter_eq_nil_iff]
      intro d hd
      simp [hsw cur st d hd]
    have e : text ((c, st) :: t) = [c] ++ text t := rfl
    rw [renderWith, e, List.filter_append, List.filter_append, List.filter_append, hz, henc, ih st, List.nil_append]

/-! ### The characters of style changes -/

theorem mem_ansiRest (l : List Str) (c : Char) (h : c ∈ ansiRest l) : c = ';' ∨ ∃ s ∈ l, c ∈ s := by
  simp only [ansiRest, List.mem_flatMap, List.mem_cons] at h
  obtain ⟨s, hs, rfl | hc⟩ := h
  · exact Or.inl rfl
  · exact Or.inr ⟨s, hs, hc⟩

theorem ansiSwitch_marks (a b : Style) : ∀ c ∈ ansiSwitch a b, ansiMark c = true := by
  intro c hc
  unfold ansiSwitch at hc
  split at hc
  · have : ∀ c ∈ Ansi.resetSeq, ansiMark c = true := by decide
    exact this c hc
  · have hseg := isParam_segments (b.diffFrom a)
    generalize Ansi.segments (b.diffFrom a) = l at hseg hc
    cases l with
    | nil => cases hc
    | cons s l =>
      have hd : ∀ q ∈ s :: l, c ∈ q → ansiMark c = true := fun q hq hcq => by
        simp [ansiMark, hseg q hq c hcq]
      simp only [ansiSegs, List.mem_append] at hc
      have h1 : ∀ c ∈ str "\x1b[", ansiMark c = true := by decide
      have h2 : ∀ c ∈ str "m", ansiMark c = true := by decide
      rcases hc with ((hc | hc) | hc) | hc
      · exact h1 c hc
      · exact hd s (by simp) hc
      · rcases mem_ansiRest l c hc with rfl | ⟨q, hq, hcq⟩
        · decide
        · exact hd q (by simp [hq]) hcq
      · exact h2 c hc

theorem printable_seg (d : StyleDiff) : ∀ s ∈ Html.segments d, ∀ c ∈ s, printable c = true := by
  have h1 : ∀ x : Color, ∀ c ∈ str (HtmlUtil.foreground x), printable c = true := by
    intro x; cases x <;> decide
  have h2 : ∀ x : Color, ∀ c ∈ str (HtmlUtil.background x), printable c = true := by
    intro x; cases x <;> decide
  have h3 : ∀ x : Intensity, ∀ c ∈ str (HtmlUtil.intensity x), printable c = true := by
    intro x; cases x <;> decide
  intro s hs
  obtain ⟨f, g, i⟩ := d
  simp only [Html.segments, List.mem_filterMap, List.mem_cons, List.not_mem_nil, or_false, id_eq,
    exists_eq_right] at hs
  rcases hs with hs | hs | hs
  · cases f with
    | none => cases hs
    | some x => cases hs; exact h1 x
  · cases g with
    | none => cases hs
    | some x => cases hs; exact h2 x
  · cases i with
    | none => cases hs
    | some x => cases hs; exact h3 x

theorem htmlSwitch_printable (a b : Style) : ∀ c ∈ htmlSwitch a b, printable c = true := by
  have hclose : ∀ c ∈ htmlClose a, printable c = true := by
    unfold htmlClose
    split
    · decide
    · intro c hc; exact absurd hc List.not_mem_nil
  intro c hc
  unfold htmlSwitch at hc
  split at hc
  · exact hclose c hc
  · split at hc
    · have hseg := printable_seg (b.diffFrom Style.default)
      generalize Html.segments (b.diffFrom Style.default) = l at hseg hc
      cases l with
      | nil => cases hc
      | cons s l =>
        have hd : ∀ q ∈ s :: l, c ∈ q → printable c = true := fun q hq hcq => hseg q hq c hcq
        simp only [htmlSegs, List.mem_append] at hc
        have h1 : ∀ c ∈ str "<span style=", printable c = true := by decide
        have h2 : ∀ c ∈ str ">", printable c = true := by decide
        rcases hc with hc | ((hc | hc) | hc) | hc
        · exact hclose c hc
        · exact h1 c hc
        · exact hd s (by simp) hc
        · simp only [htmlRest, List.mem_flatMap, List.mem_cons] at hc
          obtain ⟨q, hq, rfl | hcq⟩ := hc
          · decide
          · exact hd q (by simp [hq]) hcq
        · exact h2 c hc
    · exact absurd hc List.not_mem_nil

theorem htmlEnc_filter (c : Char) :
    (htmlEnc c).filter (fun c => !printable c) = [c].filter (fun c => !printable c) := by
  unfold htmlEnc htmlEntity
  by_cases h1 : c = '<'; · subst h1; decide
  by_cases h2 : c = '>'; · subst h2; decide
  by_cases h3 : c = '&'; · subst h3; decide
  by_cases h4 : c = '"'; · subst h4; decide
  by_cases h5 : c = '\''; · subst h5; decide
  simp [h1, h2, h3, h4, h5]

theorem htmlEnc_nl (c : Char) (hc : c ≠ '\n') : '\n' ∉ htmlEnc c := by
  unfold htmlEnc htmlEntity
  by_cases h1 : c = '<'; · subst h1; decide
  by_cases h2 : c = '>'; · subst h2; decide
  by_cases h3 : c = '&'; · subst h3; decide
  by_cases h4 : c = '"'; · subst h4; decide
  by_cases h5 : c = '\''; · subst h5; decide
  simp [h1, h2, h3, h4, h5]
  exact fun e => hc e.symm

theorem text_chunks (chs : List Chunk) : text (flatten chs) = chs.flatMap Prod.fst := by
  simp [text, flatten, paint, List.map_flatMap, Function.comp_def]

/-! ## C60 -/

/-- C60: ANSI output, finished or not, has the lines of the text: each line, without its escape sequences, is the
line of the text with the same number. -/
theorem C60_ansi_lines (k : FmtSink T) (t : T) (chs : List Chunk) (out : Str) (hesc : NoEsc chs)
    (h : AnsiWrote k t chs out ∨ AnsiFinished k t chs out) :
    (lines out).map stripSgr = lines (chs.flatMap Prod.fst) := by
  have key : ∀ a b, (lines (renderWith ansiSwitch plainEnc Style.default (flatten chs) ++ ansiSwitch a b)).map
      (fun l => some (stripSgr l)) = (lines (text (flatten chs))).map some := by
    intro a b
    refine lines_render ansiSwitch plainEnc (fun l => some (stripSgr l)) (fun c => c ≠ ESC) ?_ ?_ rfl ?_ ?_ rfl
      Style.default (flatten chs) (noEsc_flatten chs hesc) a b
    · intro a b l
      exact congrArg some (strip_switch a b l)
    · intro c hc l
      show some (stripSgr.go false (c :: l)) = _
      rw [stripSgr.go, if_neg hc]
      rfl
    · intro a b hm
      exact absurd (ansiSwitch_marks a b _ hm) (by decide)
    · intro c hc hm
      exact hc (List.mem_singleton.1 hm).symm
  have inj : ∀ l m : List Str, l.map (fun l => some (stripSgr l)) = m.map some → l.map stripSgr = m := by
    intro l m e
    have := congrArg (List.map (fun o : Option Str => o.getD [])) e
    simpa [Function.comp_def] using this
  rw [← text_chunks]
  rcases h with h | h
  · have := key Style.default Style.default
    rw [ansiSwitch_self, List.append_nil] at this
    rw [ansiWrote_eq k t chs out h]
    exact inj _ _ this
  · rw [ansiFinished_eq k t chs out h]
    exact inj _ _ (key _ _)

/-- C60: HTML output, finished or not, has the lines of the text: no tag or character reference is split between
lines, and the characters of each line are those of the line of the text with the same number. -/
theorem C60_html_lines (k : FmtSink T) (t : T) (chs : List Chunk) (out : Str)
    (h : HtmlWrote k t chs out ∨ HtmlFinished k t chs out) :
    (lines out).map (fun l => (tokens l).map chars) = (lines (chs.flatMap Prod.fst)).map some := by
  have key : ∀ a b, (lines (renderWith htmlSwitch htmlEnc Style.default (flatten chs) ++ htmlSwitch a b)).map
      (fun l => (tokens l).map chars) = (lines (text (flatten chs))).map some := by
    intro a b
    refine lines_render htmlSwitch htmlEnc (fun l => (tokens l).map chars) (fun _ => True) ?_ ?_ rfl ?_ htmlEnc_nl rfl
      Style.default (flatten chs) (fun _ _ => trivial) a b
    · intro a b l
      simp only [tokens, lex_append _ _ l _ (lex_switch a b), Option.map_map, Function.comp_def, chars_append,
        chars_switch, List.nil_append]
    · intro c _ l
      simp only [tokens, lex_append _ _ l _ (lex_enc c), Option.map_map, Function.comp_def, chars_append]
      rfl
    · intro a b hm
      exact absurd (htmlSwitch_printable a b _ hm) (by decide)
  rw [← text_chunks]
  rcases h with h | h
  · have := key Style.default Style.default
    rw [htmlSwitch_self, List.append_nil] at this
    rw [htmlWrote_eq k t chs out h]
    exact this
  · rw [htmlFinished_eq k t chs out h]
    exact key _ _

/-- C60: apart from ESC, `[`, digits, `;` and `m`, ANSI output has exactly the characters of the text, in
order. -/
theorem C60_ansi_chars (k : FmtSink T) (t : T) (chs : List Chunk) (out : Str)
    (h : AnsiWrote k t chs out ∨ AnsiFinished k t chs out) :
    out.filter (fun c => !ansiMark c) = (chs.flatMap Prod.fst).filter (fun c => !ansiMark c) := by
  have key := filter_render ansiSwitch plainEnc ansiMark ansiSwitch_marks (fun _ => rfl) Style.default (flatten chs)
  rw [← text_chunks]
  rcases h with h | h
  · rw [ansiWrote_eq k t chs out h, key]
  · have hz : (ansiSwitch (lastStyle Style.default (flatten chs)) Style.default).filter (fun c => !ansiMark c) = [] := by
      rw [List.filter_eq_nil_iff]
      intro d hd
      simp [ansiSwitch_marks _ _ d hd]
    rw [ansiFinished_eq k t chs out h, ansiRender, List.filter_append, key, hz, List.append_nil]

/-- C60: apart from printable ASCII, HTML output has exactly the characters of the text, in order: no control
character or character outside ASCII is added, lost or changed. -/
theorem C60_html_chars (k : FmtSink T) (t : T) (chs : List Chunk) (out : Str)
    (h : HtmlWrote k t chs out ∨ HtmlFinished k t chs out) :
    out.filter (fun c => !printable c) = (chs.flatMap Prod.fst).filter (fun c => !printable c) := by
  have key := filter_render htmlSwitch htmlEnc printable htmlSwitch_printable htmlEnc_filter Style.default (flatten chs)
  rw [← text_chunks]
  rcases h with h | h
  · rw [htmlWrote_eq k t chs out h, key]
  · have hz : (htmlSwitch (lastStyle Style.default (flatten chs)) Style.default).filter (fun c => !printable c) = [] := by
      rw [List.filter_eq_nil_iff]
      intro d hd
      simp [htmlSwitch_printable _ _ d hd]
    rw [htmlFinished_eq k t chs out h, htmlRender, List.filter_append, key, hz, List.append_nil]

/-- Example: a style over two lines, and characters to escape. -/
example : ∃ out, HtmlFinished stringSink StdString.new [(['a', '\n', '<'], ⟨.Red, .Default, .Normal⟩)] out ∧
    lines out = [str "<span style=color:red>a", str "&lt;</span>"] :=
  ⟨_, ⟨_, _, rfl, rfl, rfl⟩, by decide⟩

example : ∃ out, AnsiFinished stringSink StdString.new [(['a', '\n', 'é'], ⟨.Red, .Default, .Normal⟩)] out ∧
    lines out = [str "\x1b[31ma", str "é\x1b[0m"] ∧ out.filter (fun c => !ansiMark c) = ['a', '\n', 'é'] :=
  ⟨_, ⟨_, _, rfl, rfl, rfl⟩, by decide, by decide⟩

end Stylish.Props
