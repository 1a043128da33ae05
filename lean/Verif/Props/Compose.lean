import Verif.Spec.Changes
import Verif.Props.Ansi
import Verif.Props.Html
/-
Properties of whole outputs: they determine the styled text (C50), they can be concatenated (C51), and
their size is bounded by the text and the number of style changes (C52).
-/

namespace Stylish.Props

open Spec HtmlReader

variable {T U : Type} [FmtWrite T] [FmtWrite U]

/-! ## C50 -/

theorem ofStyle_injective (a b : Style) (h : Attrs.ofStyle a = Attrs.ofStyle b) : a = b := by
  obtain ⟨f, g, i⟩ := a
  obtain ⟨f', g', i'⟩ := b
  simp only [Attrs.ofStyle, Attrs.mk.injEq] at h
  obtain ⟨rfl, rfl, h1, h2⟩ := h
  cases i <;> cases i' <;> simp_all

theorem shouldLook_injective (t u : Styled) (h : shouldLook t = shouldLook u) : t = u := by
  induction t generalizing u with
  | nil => cases u with
    | nil => rfl
    | cons y u => simp [shouldLook] at h
  | cons x t ih => cases u with
    | nil => simp [shouldLook] at h
    | cons y u =>
      simp only [shouldLook, List.map_cons, List.cons.injEq, Prod.mk.injEq] at h
      have := ih u h.2
      rw [this, Prod.ext h.1.1 (ofStyle_injective _ _ h.1.2)]

/-- C50: two finished HTML outputs are the same exactly when the styled characters are. -/
theorem C50_html (k : FmtSink T) (k' : FmtSink U) (t : T) (t' : U) (chs chs' : List Chunk) (out out' : Str)
    (h : HtmlFinished k t chs out) (h' : HtmlFinished k' t' chs' out') :
    out = out' ↔ flatten chs = flatten chs' := by
  constructor
  · rintro rfl
    have e := C19_reads_back k t chs out h
    rw [C19_reads_back k' t' chs' out h'] at e
    exact (Option.some.inj e).symm
  · intro hs
    rw [htmlFinished_eq k t chs out h, htmlFinished_eq k' t' chs' out' h', hs]

/-- C50: two finished ANSI outputs of text without ESC are the same exactly when the styled characters
are. -/
theorem C50_ansi (k : FmtSink T) (k' : FmtSink U) (t : T) (t' : U) (chs chs' : List Chunk)
    (out out' : Str) (h : AnsiFinished k t chs out) (h' : AnsiFinished k' t' chs' out')
    (hesc : NoEsc chs) (hesc' : NoEsc chs') :
    out = out' ↔ flatten chs = flatten chs' := by
  constructor
  · intro e
    have key : ∀ c : List Chunk, NoEsc c →
        (Terminal.fresh.feed .exclusive (ansiRender (flatten c))).screen = shouldLook (flatten c) := by
      intro c hc
      have e : Terminal.fresh = ⟨.ground, Attrs.ofStyle Style.default, []⟩ := rfl
      rw [ansiRender, feed_append, e, feed_render .exclusive Style.default (flatten c) []
        (noEsc_flatten c hc) (Or.inl rfl), feed_switch .exclusive _ _ _ (Or.inl rfl)]
      rfl
    rw [ansiFinished_eq k t chs out h, ansiFinished_eq k' t' chs' out' h'] at e
    refine shouldLook_injective _ _ ?_
    rw [← key chs hesc, ← key chs' hesc', e]
  · intro hs
    rw [ansiFinished_eq k t chs out h, ansiFinished_eq k' t' chs' out' h', hs]

/-- The ESC condition is needed: one output for two styled texts. -/
theorem C50_ansi_esc_needed :
    let chs : List Chunk := [(str "\x1b[31mb\x1b[0m", Style.default)]
    let chs' : List Chunk := [(str "b", ⟨.Red, .Default, .Normal⟩)]
    ∃ out, AnsiFinished stringSink StdString.new chs out ∧ AnsiFinished stringSink StdString.new chs' out ∧
      flatten chs ≠ flatten chs' :=
  ⟨str "\x1b[31mb\x1b[0m", ⟨_, _, rfl, rfl, rfl⟩, ⟨_, _, rfl, rfl, rfl⟩, by decide⟩

/-- C50 for `html::format`. -/
theorem C50_html_format (args args' : Arguments) (log log' : List Chunk)
    (h : writes args.f Style.default FormatterArgs.default = (log, .ok ()))
    (h' : writes args'.f Style.default FormatterArgs.default = (log', .ok ())) :
    htmlFormat args = htmlFormat args' ↔ flatten log = flatten log' := by
  rw [htmlFormat_eq, htmlFormat_eq, denote, denote, h, h']
  simp only [formatOutcome, Res.ok.injEq]
  constructor
  · intro e
    have := congrArg HtmlReader.read e
    rw [read_htmlRender, read_htmlRender] at this
    exact Option.some.inj this
  · rintro e; rw [e]

/-! ## C51 -/

/-- C51: finished HTML outputs put one after the other read as the styled texts one after the other. -/
theorem C51_html (k : FmtSink T) (parts : List (T × List Chunk × Str))
    (h : ∀ p ∈ parts, HtmlFinished k p.1 p.2.1 p.2.2) :
    HtmlReader.read (parts.flatMap (fun p => p.2.2)) = some (parts.flatMap (fun p => flatten p.2.1)) := by
  have key : ∀ parts : List (T × List Chunk × Str), (∀ p ∈ parts, HtmlFinished k p.1 p.2.1 p.2.2) →
      ∃ ts, tokens (parts.flatMap (fun p => p.2.2)) = some ts ∧
        page [] ts = some (parts.flatMap (fun p => flatten p.2.1)) := by
    intro parts
    induction parts with
    | nil => intro _; exact ⟨[], rfl, rfl⟩
    | cons p parts ih =>
      intro h
      obtain ⟨ts, h1, h2⟩ := ih (fun q hq => h q (by simp [hq]))
      have hp := htmlFinished_eq k p.1 p.2.1 p.2.2 (h p (by simp))
      refine ⟨(renderTokens Style.default (flatten p.2.1) ++
          switchTokens (lastStyle Style.default (flatten p.2.1)) Style.default) ++ ts, ?_, ?_⟩
      · rw [List.flatMap_cons, hp]
        exact lex_append_some _ _ _ _ _ (tokens_htmlRender _) h1
      · have e : ([] : List Style) = stackOf Style.default := rfl
        rw [List.append_assoc, e, page_render, page_switch, ← e, h2]
        simp
  obtain ⟨ts, h1, h2⟩ := key parts h
  simp [HtmlReader.read, h1, h2]

/-- C51 (under the conditions of C14): finished ANSI outputs put one after the other show the styled texts
one after the other, and leave the terminal reset. -/
theorem C51_ansi (k : FmtSink T) (parts : List (T × List Chunk × Str))
    (h : ∀ p ∈ parts, AnsiFinished k p.1 p.2.1 p.2.2) (hesc : ∀ p ∈ parts, NoEsc p.2.1) (kind : TermKind)
    (hkind : kind = .exclusive ∨ ∀ p ∈ parts, NoBoldFaint (flatten p.2.1)) :
    Terminal.fresh.feed kind (parts.flatMap (fun p => p.2.2)) =
      ⟨.ground, Attrs.initial, shouldLook (parts.flatMap (fun p => flatten p.2.1))⟩ := by
  have key : ∀ (parts : List (T × List Chunk × Str)) (scr : List (Char × Attrs)),
      (∀ p ∈ parts, AnsiFinished k p.1 p.2.1 p.2.2) → (∀ p ∈ parts, NoEsc p.2.1) →
      (kind = .exclusive ∨ ∀ p ∈ parts, NoBoldFaint (flatten p.2.1)) →
      Terminal.feed kind ⟨.ground, Attrs.initial, scr⟩ (parts.flatMap (fun p => p.2.2)) =
        ⟨.ground, Attrs.initial, scr ++ shouldLook (parts.flatMap (fun p => flatten p.2.1))⟩ := by
    intro parts
    induction parts with
    | nil => intro scr _ _ _; simp [Terminal.feed, shouldLook]
    | cons p parts ih =>
      intro scr h hesc hkind
      have hp := ansiFinished_eq k p.1 p.2.1 p.2.2 (h p (by simp))
      have hk : kind = .exclusive ∨ NoBoldFaint (flatten p.2.1) := hkind.imp id (fun f => f p (by simp))
      have e : Attrs.initial = Attrs.ofStyle Style.default := rfl
      rw [List.flatMap_cons, feed_append, hp, ansiRender, feed_append]
      conv => lhs; rw [e]
      rw [feed_render kind Style.default (flatten p.2.1) scr (noEsc_flatten _ (hesc p (by simp)))
        (hk.imp id (noBoldFaint_from _).1), feed_switch kind _ _ _ (Or.inr ?_), ← e,
        ih _ (fun q hq => h q (by simp [hq])) (fun q hq => hesc q (by simp [hq]))
          (hkind.imp id fun f q hq => f q (by simp [hq]))]
      · simp [shouldLook, look]
      · simp [BoldFaint, Style.default]
  exact key parts [] h hesc hkind

/-! ## C52 -/

theorem strLen_append (a b : Str) : strLen (a ++ b) = strLen a + strLen b := by simp [strLen]

theorem len_fg (c : Color) : strLen (str (AnsiUtil.foreground c)) = 2 := by cases c <;> decide

theorem len_bg (c : Color) : 2 ≤ strLen (str (AnsiUtil.background c)) ∧
    strLen (str (AnsiUtil.background c)) ≤ 3 := by cases c <;> decide

theorem len_int (i : Intensity) : 1 ≤ strLen (str (AnsiUtil.intensity i)) ∧
    strLen (str (AnsiUtil.intensity i)) ≤ 2 := by cases i <;> decide

theorem diffFrom_none (cur st : Style) (h : st.diffFrom cur = ⟨none, none, none⟩) : cur = st := by
  obtain ⟨f, g, i⟩ := cur
  obtain ⟨f', g', i'⟩ := st
  simp only [Style.diffFrom, diffField, StyleDiff.mk.injEq] at h
  obtain ⟨h1, h2, h3⟩ := h
  have e1 : f' = f := by by_cases e : f' = f <;> simp_all
  have e2 : g' = g := by by_cases e : g' = g <;> simp_all
  have e3 : i' = i := by by_cases e : i' = i <;> simp_all
  rw [e1, e2, e3]

theorem ansiSwitch_len (cur st : Style) (h : cur ≠ st) :
    4 ≤ strLen (ansiSwitch cur st) ∧ strLen (ansiSwitch cur st) ≤ 12 := by
  unfold ansiSwitch
  split
  · decide
  · have hne : st.diffFrom cur ≠ ⟨none, none, none⟩ := fun e => h (diffFrom_none _ _ e)
    generalize st.diffFrom cur = d at hne ⊢
    obtain ⟨f, g, i⟩ := d
    have a1 : strLen ['\x1b', '['] = 2 := by decide
    have a2 : strLen ['m'] = 1 := by decide
    have a3 : ∀ s, strLen (';' :: s) = 1 + strLen s := fun s => by
      have : strLen [';'] = 1 := by decide
      rw [← this, ← strLen_append]; rfl
    have a4 : strLen [] = 0 := rfl
    have a5 : str "\x1b[" = ['\x1b', '['] := by decide
    have a6 : str "m" = ['m'] := by decide
    rcases f with _ | f <;> rcases g with _ | g <;> rcases i with _ | i <;>
      simp only [Ansi.segments, Option.map_some, Option.map_none, List.filterMap_cons, id_eq,
        List.filterMap_nil, ansiSegs, ansiRest, List.flatMap_cons, List.flatMap_nil, strLen_append, a1, a2, a3, a4,
        a5, a6]
    · exact absurd rfl hne
    all_goals (try have f1 := len_fg f)
    all_goals (try have g1 := len_bg g)
    all_goals (try have i1 := len_int i)
    all_goals omega

theorem renderWith_len (sw : Style → Style → Str) (enc : Char → Str) (lo hi : Nat) (extra : Char → Nat)
    (hself : ∀ st, sw st st = []) (hsw : ∀ cur st, cur ≠ st → lo ≤ strLen (sw cur st) ∧ strLen (sw cur st) ≤ hi)
    (henc : ∀ c, c.utf8Size ≤ strLen (enc c) ∧ strLen (enc c) ≤ c.utf8Size + extra c)
    (cur : Style) (t : Styled) :
    strLen (text t) + lo * changesFrom cur (t.map Prod.snd) ≤
      strLen (renderWith sw enc cur t ++ sw (lastStyle cur t) Style.default) ∧
    strLen (renderWith sw enc cur t ++ sw (lastStyle cur t) Style.default) ≤
      strLen (text t) + ((t.map Prod.fst).map extra).sum + hi * changesFrom cur (t.map Prod.snd) := by
  have step : ∀ cur st : Style, lo * (if st = cur then 0 else 1) ≤ strLen (sw cur st) ∧
      strLen (sw cur st) ≤ hi * (if st = cur then 0 else 1) := by
    intro cur st
    by_cases h : cur = st
    · subst h; simp [hself, strLen]
    · have := hsw cur st h
      have h' : ¬ st = cur := fun e => h e.symm
      simpa [h'] using this
  induction t generalizing cur with
  | nil =>
    have := step cur Style.default
    have e : (cur = (⟨.Default, .Default, .Normal⟩ : Style)) = (Style.default = cur) :=
      propext ⟨fun h => h.symm, fun h => h.symm⟩
    simpa [renderWith, lastStyle, text, changesFrom, strLen, e] using this
  | cons x t ih =>
    obtain ⟨c, st⟩ := x
    have h1 := step cur st
    have h2 := henc c
    have h3 := ih st
    have e1 : strLen (text ((c, st) :: t)) = c.utf8Size + strLen (text t) := by simp [text, strLen]
    simp only [renderWith, lastStyle, List.map_cons, changesFrom, List.append_assoc, strLen_append,
      List.sum_cons, Nat.mul_add, e1] at h3 ⊢
    omega

/-- C52: an ANSI output has the bytes of the text, and between 4 and 12 for each change of style. -/
theorem C52_ansi_size (k : FmtSink T) (t : T) (chs : List Chunk) (out : Str) (h : AnsiFinished k t chs out) :
    strLen (text (flatten chs)) + 4 * changes (flatten chs) ≤ strLen out ∧
    strLen out ≤ strLen (text (flatten chs)) + 12 * changes (flatten chs) := by
  rw [ansiFinished_eq k t chs out h]
  have := renderWith_len ansiSwitch plainEnc 4 12 (fun _ => 0) ansiSwitch_self ansiSwitch_len
    (by intro c; simp [plainEnc, strLen]) Style.default (flatten chs)
  have z : ∀ l : List Char, (l.map (fun _ => 0)).sum = 0 := by
    intro l; induction l <;> simp_all
  rw [z] at this
  exact this

theorem htmlEnc_len (c : Char) : c.utf8Size ≤ strLen (htmlEnc c) ∧
    strLen (htmlEnc c) ≤ c.utf8Size + if ['<', '>', '&', '"', '\''].contains c then 5 else 0 := by
  unfold htmlEnc htmlEntity
  by_cases h1 : c = '<'
  · subst h1; decide
  by_cases h2 : c = '>'
  · subst h2; decide
  by_cases h3 : c = '&'
  · subst h3; decide
  by_cases h4 : c = '"'
  · subst h4; decide
  by_cases h5 : c = '\''
  · subst h5; decide
  simp [h1, h2, h3, h4, h5, strLen]

theorem len_hfg (c : Color) : strLen (str (HtmlUtil.foreground c)) ≤ 13 := by cases c <;> decide
theorem len_hbg (c : Color) : strLen (str (HtmlUtil.background c)) ≤ 24 := by cases c <;> decide
theorem len_hint (i : Intensity) : strLen (str (HtmlUtil.intensity i)) ≤ 19 := by cases i <;> decide

theorem htmlSwitch_len (cur st : Style) (h : cur ≠ st) :
    7 ≤ strLen (htmlSwitch cur st) ∧ strLen (htmlSwitch cur st) ≤ 78 := by
  unfold htmlSwitch
  have hclose : strLen (htmlClose cur) ≤ 7 := by unfold htmlClose; split <;> decide
  split
  · rename_i hs
    subst hs
    unfold htmlClose
    rw [if_pos h]
    decide
  · rename_i hs
    rw [if_pos (fun e => h e.symm)]
    have hne : st.diffFrom Style.default ≠ ⟨none, none, none⟩ :=
      fun e => hs (diffFrom_none _ _ e).symm
    generalize st.diffFrom Style.default = d at hne ⊢
    obtain ⟨f, g, i⟩ := d
    have a2 : strLen (str ">") = 1 := by decide
    have a3 : ∀ s, strLen (';' :: s) = 1 + strLen s := fun s => by
      have : strLen [';'] = 1 := by decide
      rw [← this, ← strLen_append]; rfl
    have a4 : strLen [] = 0 := rfl
    have a5 : strLen (str "<span style=") = 12 := by decide
    rcases f with _ | f <;> rcases g with _ | g <;> rcases i with _ | i <;>
      simp only [Html.segments, Option.map_some, Option.map_none, List.filterMap_cons, id_eq,
        List.filterMap_nil, htmlSegs, htmlRest, List.flatMap_cons, List.flatMap_nil, strLen_append, a2, a3, a4, a5]
    · exact absurd rfl hne
    all_goals (try have f1 := len_hfg f)
    all_goals (try have g1 := len_hbg g)
    all_goals (try have i1 := len_hint i)
    all_goals omega

/-- C52: an HTML output has the bytes of the text, at most 5 more for each character to escape, and between
7 and 78 for each change of style. -/
theorem C52_html_size (k : FmtSink T) (t : T) (chs : List Chunk) (out : Str) (h : HtmlFinished k t chs out) :
    strLen (text (flatten chs)) + 7 * changes (flatten chs) ≤ strLen out ∧
    strLen out ≤ strLen (text (flatten chs)) + 5 * specials (flatten chs) + 78 * changes (flatten chs) := by
  rw [htmlFinished_eq k t chs out h]
  have := renderWith_len htmlSwitch htmlEnc 7 78 (fun c => if ['<', '>', '&', '"', '\''].contains c then 5 else 0)
    htmlSwitch_self htmlSwitch_len htmlEnc_len Style.default (flatten chs)
  have z : ∀ l : List Char, (l.map (fun c => if ['<', '>', '&', '"', '\''].contains c then 5 else 0)).sum =
      5 * l.countP (fun c => ['<', '>', '&', '"', '\''].contains c) := by
    intro l
    induction l with
    | nil => rfl
    | cons c l ih =>
      rw [List.map_cons, List.sum_cons, ih, List.countP_cons]
      split <;> omega
  rw [z] at this
  exact this

/-! ## The hypotheses of C50 - C52 are met, and the bounds are attained -/

example : HtmlFinished stringSink StdString.new htmlSample htmlSampleOut ∧
    HtmlReader.read (htmlSampleOut ++ (htmlSampleOut ++ [])) =
      some (flatten htmlSample ++ (flatten htmlSample ++ [])) := by
  refine ⟨htmlSample_finished, ?_⟩
  have hs := htmlSample_finished
  generalize htmlSampleOut = out at hs ⊢
  generalize htmlSample = chs at hs ⊢
  refine C51_html stringSink [(StdString.new, chs, out), (StdString.new, chs, out)] ?_
  intro p hp
  simp only [List.mem_cons, List.not_mem_nil, or_false, or_self] at hp
  subst hp
  exact hs

/-- Two escape sequences, of 12 and of 4 bytes. -/
example : AnsiFinished stringSink StdString.new
    [(['a'], ⟨.Default, .Default, .Bold⟩), (['b'], ⟨.BrightWhite, .BrightWhite, .Normal⟩)]
    (str "\x1b[1ma\x1b[97;107;22mb\x1b[0m") := by
  have h := (ansiFinished_exists stringSink stringSink_accepting StdString.new
    [(['a'], ⟨.Default, .Default, .Bold⟩), (['b'], ⟨.BrightWhite, .BrightWhite, .Normal⟩)]).2
  have e : ansiRender (flatten [(['a'], ⟨.Default, .Default, .Bold⟩),
      (['b'], ⟨.BrightWhite, .BrightWhite, .Normal⟩)]) = str "\x1b[1ma\x1b[97;107;22mb\x1b[0m" := by
    decide +kernel
  rwa [e] at h

/-- A change of 78 bytes and one of 7. -/
example : htmlRender [('a', ⟨.Default, .Default, .Bold⟩), ('b', ⟨.BrightWhite, .BrightWhite, .Faint⟩)] =
    str ("<span style=font-weight:bolder>a" ++
      "</span><span style=color:#ffffff;background-color:#ffffff;font-weight:lighter>b</span>") := by
  decide +kernel

/-- Two ANSI outputs in sequence. -/
example : Terminal.fresh.feed .independent (str "\x1b[1ma\x1b[0m" ++ str "\x1b[2mb\x1b[0m") =
    ⟨.ground, Attrs.initial, shouldLook [('a', ⟨.Default, .Default, .Bold⟩), ('b', ⟨.Default, .Default, .Faint⟩)]⟩ := by
  have := C51_ansi stringSink [(StdString.new, [(['a'], ⟨.Default, .Default, .Bold⟩)], str "\x1b[1ma\x1b[0m"),
    (StdString.new, [(['b'], ⟨.Default, .Default, .Faint⟩)], str "\x1b[2mb\x1b[0m")]
    (by
      intro p hp
      simp only [List.mem_cons, List.not_mem_nil, or_false] at hp
      rcases hp with rfl | rfl
      · exact ⟨_, _, rfl, rfl, rfl⟩
      · exact ⟨_, _, rfl, rfl, rfl⟩)
    (by
      intro p hp
      simp only [List.mem_cons, List.not_mem_nil, or_false] at hp
      rcases hp with rfl | rfl <;> (intro ch hch; simp at hch; subst hch; decide))
    .independent (Or.inr (by
      intro p hp pre a b post e
      simp only [List.mem_cons, List.not_mem_nil, or_false] at hp
      rcases hp with rfl | rfl <;>
        (have := congrArg List.length e; simp [flatten, paint] at this; omega)))
  simpa [paint] using this

end Stylish.Props
