import Verif.Spec.Tail
import Verif.Lemmas.Stained
import Verif.Props.Stained
import Verif.Props.Browser
import Verif.Props.Lines
/-
C106: the end of an output without its beginning.
-/

namespace Stylish.Props

open Spec

variable {T : Type} [FmtWrite T]

/-! ## C106 -/

namespace Tail

theorem dropLines_append (n : Nat) (a b : Str) (h : '\n' ∉ a) : dropLines (n + 1) (a ++ b) = dropLines (n + 1) b := by
  induction a with
  | nil => rfl
  | cons c a ih =>
    have hc : c ≠ '\n' := by rintro rfl; simp at h
    rw [List.cons_append, dropLines, if_neg hc, ih (by simp at h; exact h.2)]

/-- What is left of a rendering if the first lines are dropped. -/
theorem dropLines_render (sw : Style → Style → Str) (enc : Char → Str) (hsw : ∀ a b, '\n' ∉ sw a b)
    (hnl : enc '\n' = ['\n']) (henc : ∀ c, c ≠ '\n' → '\n' ∉ enc c) (pre rest : Styled) (cur after : Style)
    (tail : Str) :
    dropLines ((text pre).count '\n' + 1) (renderWith sw enc after (pre ++ ('\n', cur) :: rest) ++ tail) =
      renderWith sw enc cur rest ++ tail := by
  induction pre generalizing after with
  | nil =>
    rw [List.nil_append, renderWith, List.append_assoc, List.append_assoc]
    rw [show (text []).count '\n' + 1 = 0 + 1 from rfl, dropLines_append _ _ _ (hsw _ _), hnl, List.cons_append,
      dropLines, if_pos rfl, dropLines]
    rfl
  | cons x pre ih =>
    obtain ⟨c, st⟩ := x
    have e : text ((c, st) :: pre) = c :: text pre := rfl
    rw [List.cons_append, renderWith, List.append_assoc, List.append_assoc, dropLines_append _ _ _ (hsw _ _), e]
    by_cases hc : c = '\n'
    · subst hc
      rw [hnl, List.count_cons_self, List.cons_append, dropLines, if_pos rfl]
      exact ih st
    · rw [List.count_cons_of_ne (by simpa using hc), dropLines_append _ _ _ (henc c hc)]
      exact ih st

theorem lastStyle_append (pre rest : Styled) (x : Char × Style) (after : Style) :
    lastStyle after (pre ++ x :: rest) = lastStyle x.2 rest := by
  induction pre generalizing after with
  | nil => rfl
  | cons y pre ih => exact ih _

/-! ### ANSI -/

section
open Vt

theorem ansi_drop (pre rest : Styled) (cur : Style) (tail : Str) :
    dropLines ((text pre).count '\n' + 1)
        (renderWith ansiSwitch plainEnc Style.default (pre ++ ('\n', cur) :: rest) ++ tail) =
      renderWith ansiSwitch plainEnc cur rest ++ tail := by
  refine dropLines_render _ _ (fun a b h => ?_) rfl (fun c hc h => ?_) _ _ _ _ _
  · exact absurd (ansiSwitch_marks a b _ h) (by decide)
  · simp only [plainEnc, List.mem_singleton] at h
    exact hc h.symm

/-- The style last in force: that of the missing text, or of the last character since. -/
def Since (cur : Style) (styles : List Style) (now : Style) : Prop :=
  (styles = [] ∧ now = cur) ∨ ∃ l, styles = l ++ [now]

theorem since_color (f : Style → Color) {cur now st : Style} {styles : List Style} (h : Since cur styles now)
    (hn : ¬ (now ≠ st ∧ st = Style.default)) (hd : f Style.default = .Default) :
    (if f now = f st then
        (if styles.any (· = Style.default) ∨ styles.any (fun x => decide (f x ≠ f cur)) then ink (f now) else .default)
      else ink (f st)) =
      if (styles ++ [st]).any (· = Style.default) ∨ (styles ++ [st]).any (fun x => decide (f x ≠ f cur)) then ink (f st)
        else .default := by
  have hnow : styles.any (fun x => decide (f x ≠ f cur)) = false → f now = f cur := by
    intro hf
    rcases h with ⟨-, rfl⟩ | ⟨l, rfl⟩
    · rfl
    · rw [List.any_eq_false] at hf
      simpa using hf now (by simp)
  have hdef : st = Style.default → styles.any (· = Style.default) = true ∨ f st = .Default := fun e =>
    .inr (by rw [e, hd])
  simp only [List.any_append, List.any_cons, List.any_nil, Bool.or_false, Bool.or_eq_true]
  by_cases h0 : styles.any (· = Style.default) = true
  · simp only [h0, true_or, if_true]
    split
    · rename_i e; rw [e]
    · rfl
  · by_cases ha : styles.any (fun x => decide (f x ≠ f cur)) = true
    · simp only [ha, true_or, or_true, if_true]
      split
      · rename_i e; rw [e]
      · rfl
    · have hc := hnow (by simpa using ha)
      simp only [h0, ha, or_false, if_false, false_or]
      by_cases e : f now = f st
      · rw [if_pos e]
        have e' : f st = f cur := by rw [← e, hc]
        by_cases hs : st = Style.default
        · simp [hs, hd, ink]
        · simp [hs, e']
      · have e' : f st ≠ f cur := by rw [← hc]; exact Ne.symm e
        rw [if_neg e]
        simp [e']

theorem dropWhile_snoc {α : Type} (p : α → Bool) (l : List α) (a : α) :
    (l ++ [a]).dropWhile p = if l.dropWhile p = [] then (if p a then [] else [a]) else l.dropWhile p ++ [a] := by
  induction l with
  | nil => cases h : p a <;> simp [h]
  | cons x l ih =>
    cases h : p x with
    | true => simpa [List.dropWhile_cons, h] using ih
    | false => simp [List.dropWhile_cons, h]

theorem since_weights (kind : TermKind) {cur now : Style} {styles : List Style} (h : Since cur styles now) (st : Style) :
    (if now.intensity = st.intensity then weightsAfter kind cur styles now
      else Stylish.Stained.turn kind st.intensity (weightsAfter kind cur styles now)) =
      weightsAfter kind cur (styles ++ [st]) st := by
  simp only [weightsAfter, dropWhile_snoc]
  have h1 : styles.dropWhile (·.intensity = cur.intensity) = [] → now.intensity = cur.intensity := by
    intro e
    rcases h with ⟨-, rfl⟩ | ⟨l, rfl⟩
    · rfl
    · rw [dropWhile_snoc] at e
      split at e
      · split at e
        · rename_i h; simpa using h
        · simp at e
      · simp at e
  have h2 : styles.dropWhile (·.intensity = cur.intensity) ≠ [] →
      ∃ l, styles.dropWhile (·.intensity = cur.intensity) = l ++ [now] := by
    intro e
    rcases h with ⟨rfl, -⟩ | ⟨l, rfl⟩
    · simp at e
    · rw [dropWhile_snoc] at e ⊢
      split
      · split
        · rename_i h1 h2; simp [h1, h2] at e
        · exact ⟨[], rfl⟩
      · exact ⟨_, rfl⟩
  generalize styles.dropWhile (·.intensity = cur.intensity) = D at h1 h2 ⊢
  by_cases hD : D = []
  · subst hD
    have e := h1 rfl
    by_cases hs : now.intensity = st.intensity
    · have : st.intensity = cur.intensity := by rw [← hs, e]
      simp [hs, this]
    · have : ¬ st.intensity = cur.intensity := by rw [← e]; exact fun h => hs h.symm
      rw [if_neg hs]
      simp only [if_true, this, decide_false, Bool.false_eq_true, if_false]
      cases kind <;> cases hi : st.intensity <;> simp [Stylish.Stained.turn, strong, hi]
  · obtain ⟨l, rfl⟩ := h2 hD
    rw [if_neg hD]
    simp only [Stylish.Stained.strong_snoc]
    cases kind <;> cases hn : now.intensity <;> cases hi : st.intensity <;>
      simp [Stylish.Stained.turn]

theorem switch_after (kind : Kind) {cur now : Style} {styles : List Style}
    (h : Since cur styles now) (st : Style) (es : List Event) :
    Screen.feed kind ⟨.ground, lookAfter kind.boldFaint cur styles now, es⟩ (ansiSwitch now st) =
      ⟨.ground, lookAfter kind.boldFaint cur (styles ++ [st]) st, es⟩ := by
  by_cases hn : now ≠ st ∧ st = Style.default
  · unfold ansiSwitch
    obtain ⟨hc, rfl⟩ := hn
    have e : Ansi.resetSeq = str "\x1b[" ++ ['0'] ++ str "m" := by decide
    rw [if_pos ⟨hc, rfl⟩, e, Vt.feed_sgr kind _ es _ (by simp [IsParams, Char.isDigit]), Vt.sgr_zero]
    congr 1
    have hw : weightsAfter kind.boldFaint cur (styles ++ [Style.default]) Style.default = (false, false) := by
      have hi : Style.default.intensity = .Normal := rfl
      simp only [weightsAfter, dropWhile_snoc]
      cases kind.boldFaint with
      | exclusive => simp [hi]
      | independent =>
        simp only [reduceCtorEq, if_false]
        split
        · split
          · rfl
          · simp [strong, hi]
        · rw [Stylish.Stained.strong_snoc, if_pos hi]
          rfl
    have ha : (styles ++ [Style.default]).any (· = Style.default) = true := by simp
    simp only [lookAfter, hw, ha, true_or, if_true]
    rfl
  · rw [Stylish.Stained.feed_change kind now st _ es hn]
    congr 1
    have hw := since_weights kind.boldFaint h st
    have h1 := since_color Style.foreground h hn rfl
    have h2 := since_color Style.background h hn rfl
    simp only [lookAfter]
    rw [h1, h2, ← hw]
    by_cases e : now.intensity = st.intensity
    · simp only [if_pos e]
    · simp only [if_neg e]

theorem render_after (kind : Kind) (cur : Style) (t : Styled)
    (hin : ∀ x ∈ t, x.1 ∉ acts kind) {styles : List Style} {now : Style} (h : Since cur styles now) (es : List Event) :
    Screen.feed kind ⟨.ground, lookAfter kind.boldFaint cur styles now, es⟩ (renderWith ansiSwitch plainEnc now t) =
      ⟨.ground, lookAfter kind.boldFaint cur (styles ++ t.map Prod.snd) (lastStyle now t),
        es ++ seenAfter kind.boldFaint cur styles t⟩ ∧
    Since cur (styles ++ t.map Prod.snd) (lastStyle now t) := by
  induction t generalizing styles now es with
  | nil => simpa [renderWith, Screen.feed, seenAfter, lastStyle] using h
  | cons x t ih =>
    obtain ⟨c, st⟩ := x
    have ih := ih (fun y hy => hin y (by simp [hy])) (.inr ⟨styles, rfl⟩ : Since cur (styles ++ [st]) st)
      (es ++ [if isControl c then .execute c else .print c (lookAfter kind.boldFaint cur (styles ++ [st]) st)])
    rw [renderWith, Vt.feed_append, Vt.feed_append, switch_after kind h st es, plainEnc,
      Vt.step_text_any kind _ _ c (hin (c, st) (by simp)), ih.1]
    refine ⟨by simp [seenAfter, lastStyle], by simpa [lastStyle] using ih.2⟩

end

end Tail

section
open Vt

/-- C106: the ANSI output without its first lines, on a fresh terminal: the rest of the text is shown, every character
looking as `lookAfter` says for the style `cur` of the last line feed that is missing. It makes no difference whether
`finish` was called. -/
theorem C106_ansi (k : FmtSink T) (t : T) (chs : List Chunk) (out : Str)
    (h : AnsiWrote k t chs out ∨ AnsiFinished k t chs out) (kind : Kind)
    (pre rest : Styled) (cur : Style) (hf : flatten chs = pre ++ ('\n', cur) :: rest)
    (hin : ∀ x ∈ rest, x.1 ∉ acts kind) :
    (Screen.fresh.feed kind (dropLines ((text pre).count '\n' + 1) out)).events =
      seenAfter kind.boldFaint cur [] rest := by
  have hr := Tail.render_after kind cur rest hin (.inl ⟨rfl, rfl⟩ : Tail.Since cur [] cur) []
  have e0 : (⟨.ground, lookAfter kind.boldFaint cur [] cur, []⟩ : Screen) = Screen.fresh := by
    cases kind.boldFaint <;> rfl
  rw [e0] at hr
  rcases h with h | h
  · have e := Tail.ansi_drop pre rest cur []
    rw [List.append_nil, List.append_nil] at e
    rw [ansiWrote_eq k t chs out h, hf, e, hr.1]
    rfl
  · rw [ansiFinished_eq k t chs out h, ansiRender, hf, Tail.lastStyle_append, Tail.ansi_drop, Vt.feed_append, hr.1,
      Tail.switch_after kind hr.2]
    rfl

/-- C106: so, where bold and faint exclude each other, it is right exactly if for every character to be shown: one in no style comes before it or it is one itself,
or each of foreground, background and intensity was default in `cur` or has differed from `cur` by then. -/
theorem C106_ansi_exact (k : FmtSink T) (t : T) (chs : List Chunk) (out : Str)
    (h : AnsiWrote k t chs out ∨ AnsiFinished k t chs out) (kind : Kind) (hk : kind.boldFaint = .exclusive)
    (pre rest : Styled) (cur : Style) (hf : flatten chs = pre ++ ('\n', cur) :: rest)
    (hin : ∀ x ∈ rest, x.1 ∉ acts kind) :
    (Screen.fresh.feed kind (dropLines ((text pre).count '\n' + 1) out)).events = rest.map expected ↔
      ∀ a c st b, rest = a ++ (c, st) :: b → isControl c = false →
        (∃ x ∈ a ++ [(c, st)], x.2 = Style.default) ∨
        ((cur.foreground = .Default ∨ ∃ x ∈ a ++ [(c, st)], x.2.foreground ≠ cur.foreground) ∧
          (cur.background = .Default ∨ ∃ x ∈ a ++ [(c, st)], x.2.background ≠ cur.background) ∧
          (cur.intensity = .Normal ∨ ∃ x ∈ a ++ [(c, st)], x.2.intensity ≠ cur.intensity)) := by
  rw [C106_ansi k t chs out h kind pre rest cur hf hin, hk]
  have key : ∀ (t : Styled) (before : List Style), seenAfter .exclusive cur before t = t.map expected ↔
      ∀ a c st b, t = a ++ (c, st) :: b → isControl c = false →
        lookAfter .exclusive cur (before ++ (a.map Prod.snd ++ [st])) st = Pen.ofStyle st := by
    intro t
    induction t with
    | nil => intro before; simp [seenAfter]
    | cons x t ih =>
      obtain ⟨c, st⟩ := x
      intro before
      rw [seenAfter, List.map_cons, List.cons.injEq, ih]
      constructor
      · rintro ⟨h1, h2⟩ pre c' st' post e hc
        cases pre with
        | nil =>
          obtain ⟨e, -⟩ := List.cons.inj e
          obtain ⟨rfl, rfl⟩ := Prod.mk.inj e
          simp only [expected, hc, Bool.false_eq_true, if_false, Event.print.injEq, true_and] at h1
          simpa using h1
        | cons y pre =>
          obtain ⟨rfl, e'⟩ := List.cons.inj e
          simpa using h2 pre c' st' post e' hc
      · intro h
        constructor
        · cases hc : isControl c with
          | true => simp [expected, hc]
          | false =>
            have := h [] c st t rfl hc
            simp only [List.map_nil, List.nil_append] at this
            simp [expected, hc, this]
        · intro pre c' st' post e hc
          have := h ((c, st) :: pre) c' st' post (by rw [e]; rfl) hc
          simpa using this
  have look : ∀ (a : Styled) (c : Char) (st : Style),
      lookAfter .exclusive cur (a.map Prod.snd ++ [st]) st = Pen.ofStyle st ↔
        (∃ x ∈ a ++ [(c, st)], x.2 = Style.default) ∨
        ((cur.foreground = .Default ∨ ∃ x ∈ a ++ [(c, st)], x.2.foreground ≠ cur.foreground) ∧
          (cur.background = .Default ∨ ∃ x ∈ a ++ [(c, st)], x.2.background ≠ cur.background) ∧
          (cur.intensity = .Normal ∨ ∃ x ∈ a ++ [(c, st)], x.2.intensity ≠ cur.intensity)) := by
    intro a c st
    have any : ∀ (q : Style → Prop) [DecidablePred q],
        ((a.map Prod.snd ++ [st]).any (fun x => decide (q x)) = true ↔ ∃ x ∈ a ++ [(c, st)], q x.2) := by
      intro q _
      have e : a.map Prod.snd ++ [st] = (a ++ [(c, st)]).map Prod.snd := by simp
      rw [e, List.any_map, List.any_eq_true]
      simp
    have one : ∀ {α : Type} [DecidableEq α] (f : Style → α),
        (a.map Prod.snd ++ [st]).any (fun x => decide (f x ≠ f cur)) = false → f st = f cur := by
      intro α _ f h
      rw [List.any_eq_false] at h
      simpa using h st (by simp)
    rw [← any (fun x => x = Style.default), ← any (fun x => x.foreground ≠ cur.foreground),
      ← any (fun x => x.background ≠ cur.background), ← any (fun x => x.intensity ≠ cur.intensity)]
    have f1 := one Style.foreground
    have f2 := one Style.background
    have f3 := one Style.intensity
    have f0 : (a.map Prod.snd ++ [st]).any (fun x => decide (x = Style.default)) = true →
        (a.map Prod.snd ++ [st]).any (fun x => decide (x.intensity ≠ cur.intensity)) = false →
        cur.intensity = .Normal := by
      intro h1 h2
      rw [List.any_eq_true] at h1
      obtain ⟨x, hx, hd⟩ := h1
      rw [List.any_eq_false] at h2
      have e1 : x = Style.default := by simpa using hd
      have e2 : x.intensity = cur.intensity := by simpa using h2 x hx
      rw [← e2, e1]
      rfl
    have fw : ∀ styles : List Style, weightsAfter .exclusive cur styles st =
        if styles.any (fun x => decide (x.intensity ≠ cur.intensity)) then
          (decide (st.intensity = .Bold), decide (st.intensity = .Faint)) else (false, false) := by
      intro styles
      have : decide (styles.dropWhile (·.intensity = cur.intensity) ≠ []) =
          styles.any (fun x => decide (x.intensity ≠ cur.intensity)) := by
        induction styles with
        | nil => rfl
        | cons x l ih =>
          by_cases h : x.intensity = cur.intensity
          · simpa [List.dropWhile_cons, h] using ih
          · simp [List.dropWhile_cons, h]
      simp only [weightsAfter, if_true, this]
      cases styles.any (fun x => decide (x.intensity ≠ cur.intensity)) <;> simp
    unfold lookAfter
    rw [fw]
    generalize (a.map Prod.snd ++ [st]).any (fun x => decide (x = Style.default)) = b0 at f0 ⊢
    generalize (a.map Prod.snd ++ [st]).any (fun x => decide (x.foreground ≠ cur.foreground)) = b1 at f1 ⊢
    generalize (a.map Prod.snd ++ [st]).any (fun x => decide (x.background ≠ cur.background)) = b2 at f2 ⊢
    generalize (a.map Prod.snd ++ [st]).any (fun x => decide (x.intensity ≠ cur.intensity)) = b3 at f0 f3 ⊢
    have hink : ∀ c, .default = ink c ↔ c = .Default := by intro c; cases c <;> simp [ink]
    have hi : ∀ i : Intensity, (i = .Normal ↔ ¬ i = .Bold ∧ ¬ i = .Faint) := by intro i; cases i <;> simp
    clear key fw any one
    cases b0 <;> cases b1 <;> cases b2 <;> cases b3 <;> simp_all [Pen.ofStyle, Pen.plain]
  rw [key]
  constructor
  · intro h a c st b e hc
    exact (look a c st).1 (by simpa using h a c st b e hc)
  · intro h a c st b e hc
    simpa using (look a c st).2 (h a c st b e hc)

/-- C106: if the last line feed that is missing is in no style, the rest is shown, on terminals of all kinds, as if it had
been written by itself. -/
theorem C106_ansi_clean (k : FmtSink T) (t : T) (chs : List Chunk) (out : Str)
    (h : AnsiWrote k t chs out ∨ AnsiFinished k t chs out) (kind : Kind) (pre rest : Styled)
    (hf : flatten chs = pre ++ ('\n', Style.default) :: rest) :
    (Screen.fresh.feed kind (dropLines ((text pre).count '\n' + 1) out)).events = rest.map expected ↔
      (∀ x ∈ rest, x.1 ∉ acts kind) ∧ (kind.boldFaint = .exclusive ∨ ¬ Muddled rest) := by
  have single : ∀ l : Styled, flatten (l.map fun x => ([x.1], x.2)) = l := by
    intro l
    induction l with
    | nil => rfl
    | cons x l ih =>
      have e : flatten (((x :: l).map fun x => ([x.1], x.2))) = x :: flatten (l.map fun x => ([x.1], x.2)) := rfl
      rw [e, ih]
  have hx := ansiFinished_exists stringSink stringSink_accepting StdString.new (rest.map fun x => ([x.1], x.2))
  rw [single] at hx
  have e1 := C71_exact _ _ _ _ (.inl hx.1) kind
  have e2 := C71_exact _ _ _ _ (.inr hx.2) kind
  rw [single] at e1 e2
  rcases h with h | h
  · have e := Tail.ansi_drop pre rest Style.default []
    rw [List.append_nil, List.append_nil] at e
    rw [ansiWrote_eq k t chs out h, hf, e]
    exact e1
  · rw [ansiFinished_eq k t chs out h, ansiRender, hf, Tail.lastStyle_append, Tail.ansi_drop]
    exact e2

end

/-! ### HTML -/

namespace Tail
open Browser

variable {names : Names}

theorem html_drop (pre rest : Styled) (cur : Style) (tail : Str) :
    dropLines ((text pre).count '\n' + 1)
        (renderWith htmlSwitch htmlEnc Style.default (pre ++ ('\n', cur) :: rest) ++ tail) =
      renderWith htmlSwitch htmlEnc cur rest ++ tail := by
  refine dropLines_render _ _ (fun a b h => ?_) (by decide) (fun c hc h => ?_) _ _ _ _ _
  · exact absurd (htmlSwitch_printable a b _ h) (by decide)
  · revert h
    unfold htmlEnc htmlEntity
    by_cases h1 : c = '<'; · subst h1; decide
    by_cases h2 : c = '>'; · subst h2; decide
    by_cases h3 : c = '&'; · subst h3; decide
    by_cases h4 : c = '"'; · subst h4; decide
    by_cases h5 : c = '\''; · subst h5; decide
    simp [h1, h2, h3, h4, h5]
    exact fun e => hc e.symm

/-- The tokens at the end of the output. -/
def endTokens (finished : Bool) (last : Style) : List HtmlReader.Token :=
  if finished then switchTokens last Style.default else []

theorem build_default (t : Styled) (finished : Bool) :
    build [] ((renderTokens Style.default t ++ endTokens finished (lastStyle Style.default t)).flatMap browserTokens) =
      some (noNul t) := by
  have hf : build [] ((renderTokens Style.default t ++ switchTokens (lastStyle Style.default t) Style.default).flatMap
      browserTokens) = some (noNul t) := by
    apply build_of_strict
    have := read_htmlRender t
    rw [HtmlReader.read, tokens_htmlRender] at this
    exact this
  cases finished with
  | true => exact hf
  | false =>
    rw [endTokens, if_neg (by simp), List.append_nil, ← hf, List.flatMap_append]
    unfold switchTokens
    split
    · simp
    · unfold closeTokens openTokens
      split
      · simp
      · simp [browserTokens, build_endTag]

theorem build_after (cur : Style) (hc : cur ≠ Style.default) (t : Styled) (finished : Bool) :
    build [] ((renderTokens cur t ++ endTokens finished (lastStyle cur t)).flatMap browserTokens) =
      some (noNul (unstyled cur t)) := by
  induction t with
  | nil =>
    cases finished with
    | false => rfl
    | true =>
      simp [renderTokens, endTokens, lastStyle, switchTokens, hc, closeTokens, openTokens, browserTokens, build, unstyled,
        noNul]
  | cons x t ih =>
    obtain ⟨c, st⟩ := x
    by_cases h : st = cur
    · subst h
      have e : renderTokens st ((c, st) :: t) = .char c :: renderTokens st t := by simp [renderTokens, switchTokens]
      rw [e, unstyled, if_pos rfl]
      simp only [List.cons_append, List.flatMap_cons, lastStyle]
      rw [browserTokens]
      split
      · rename_i h0
        simp only [List.cons_append, List.nil_append, build, ih]
        simp [noNul, h0]
      · rename_i h0
        simp only [List.cons_append, List.nil_append, build, ih]
        simp [noNul, h0]
        rfl
    · have hd := build_default ((c, st) :: t) finished
      have e : renderTokens cur ((c, st) :: t) = .close :: renderTokens Style.default ((c, st) :: t) := by
        have hne : ¬ cur = st := fun e => h e.symm
        simp only [renderTokens, switchTokens, closeTokens, if_neg hne, if_neg hc]
        by_cases hs : st = Style.default
        · simp [hs, openTokens]
        · simp [Ne.symm hs, openTokens]
      rw [e, unstyled, if_neg h, ← hd]
      simp only [List.cons_append, List.flatMap_cons, lastStyle]
      rw [show browserTokens .close = [.endTag (str "span")] from rfl]
      simp [build]

theorem unstyled_default (t : Styled) : unstyled Style.default t = t := by
  induction t with
  | nil => rfl
  | cons x t ih =>
    obtain ⟨c, st⟩ := x
    rw [unstyled]
    split
    · rename_i h; rw [ih, h]
    · rfl

theorem newlines_from (cur : Style) (t : Styled) : newlines (renderWith htmlSwitch htmlEnc cur t) =
    renderWith htmlSwitch htmlEnc cur (lineBreaks t) := by
  have h := newlines_render t.length t (Nat.le_refl _) cur
  unfold renderEnd at h
  rw [newlines_seam _ _ (Nat.le_refl _), lastStyle_lineBreaks _ t (Nat.le_refl _)] at h
  · have e := newlines_append (htmlSwitch (lastStyle cur t) Style.default) [] (cr_switch _ _)
    rw [show newlines [] = [] from rfl, List.append_nil] at e
    rw [e] at h
    exact List.append_cancel_right h
  · by_cases e : htmlSwitch (lastStyle cur t) Style.default = []
    · rw [e]; exact .inr (by simp)
    · exact .inr (by simpa using head_switch _ _ [] e)

end Tail

section
open Browser

variable {names : Names}

/-- C106: the HTML output without its first lines, on a page of its own: the rest of the text is shown, and only what is at
its start in the style of the last line feed that is missing is shown in no style; everything else is in its style. (Line
breaks are normalised and NUL is dropped, as on every page.) It makes no difference whether `finish` was called. -/
theorem C106_html (hn : names.Standard) (k : FmtSink T) (t : T) (chs : List Chunk) (out : Str)
    (h : HtmlFinished k t chs out ∨ HtmlWrote k t chs out) (pre rest : Styled) (cur : Style)
    (hf : flatten chs = pre ++ ('\n', cur) :: rest) :
    shows names (dropLines ((text pre).count '\n' + 1) out) = some (noNul (unstyled cur (lineBreaks rest))) := by
  have key : ∀ finished, build [] ((renderTokens cur (lineBreaks rest) ++
      Tail.endTokens finished (lastStyle cur (lineBreaks rest))).flatMap browserTokens) =
        some (noNul (unstyled cur (lineBreaks rest))) := by
    intro finished
    by_cases hc : cur = Style.default
    · subst hc
      rw [Tail.unstyled_default]
      exact Tail.build_default _ _
    · exact Tail.build_after cur hc _ _
  unfold shows tokenize
  rcases h with h | h
  · rw [htmlFinished_eq k t chs out h, htmlRender, hf, Tail.lastStyle_append, Tail.html_drop]
    have e := newlines_render rest.length rest (Nat.le_refl _) cur
    unfold renderEnd at e
    rw [e, ← key true]
    have hl := lex_append_some _ _ _ _ _ (lex_render cur (lineBreaks rest))
      (lex_switch (lastStyle cur (lineBreaks rest)) Style.default)
    have := tokens_of_strict hn [] _ _ (Nat.le_refl _) _ hl
    rw [List.append_nil, show Browser.tokens names 0 .data [] = [] from rfl, List.append_nil] at this
    rw [this]
    rfl
  · have e := Tail.html_drop pre rest cur []
    rw [List.append_nil, List.append_nil] at e
    rw [htmlWrote_eq k t chs out h, hf, e, Tail.newlines_from, ← key false]
    have := tokens_of_strict hn [] _ _ (Nat.le_refl _) _ (lex_render cur (lineBreaks rest))
    rw [List.append_nil, show Browser.tokens names 0 .data [] = [] from rfl, List.append_nil] at this
    rw [this, Tail.endTokens, if_neg (by simp), List.append_nil]

/-- C106: so, for text without CR and NUL, it is right exactly if the last line feed that is missing is in no style or the
rest does not begin in its style. -/
theorem C106_html_exact (hn : names.Standard) (k : FmtSink T) (t : T) (chs : List Chunk) (out : Str)
    (h : HtmlFinished k t chs out ∨ HtmlWrote k t chs out) (pre rest : Styled) (cur : Style)
    (hf : flatten chs = pre ++ ('\n', cur) :: rest) (hcr : ∀ x ∈ rest, x.1 ≠ '\r' ∧ x.1 ≠ '\x00') :
    shows names (dropLines ((text pre).count '\n' + 1) out) = some rest ↔
      cur = Style.default ∨ ∀ x, rest.head? = some x → x.2 ≠ cur := by
  rw [C106_html hn k t chs out h pre rest cur hf, lineBreaks_id rest fun x hx => (hcr x hx).1]
  have hnul : noNul (unstyled cur rest) = unstyled cur rest := by
    have key : ∀ l : Styled, (∀ x ∈ l, x.1 ≠ '\x00') → ∀ x ∈ unstyled cur l, x.1 ≠ '\x00' := by
      intro l
      induction l with
      | nil => intro _ x hx; simp [unstyled] at hx
      | cons y l ih =>
        intro hl x hx
        obtain ⟨c, st⟩ := y
        rw [unstyled] at hx
        split at hx
        · rcases List.mem_cons.1 hx with rfl | hx
          · exact hl (c, st) (by simp)
          · exact ih (fun z hz => hl z (by simp [hz])) x hx
        · exact hl x hx
    rw [noNul, List.filter_eq_self.2]
    intro x hx
    simpa using key rest (fun x hx => (hcr x hx).2) x hx
  rw [hnul, Option.some.injEq]
  constructor
  · intro h
    by_cases hc : cur = Style.default
    · exact .inl hc
    · refine .inr fun x hx e => hc ?_
      cases rest with
      | nil => simp at hx
      | cons y l =>
        obtain rfl : y = x := by simpa using hx
        obtain ⟨c, st⟩ := y
        obtain rfl : st = cur := e
        rw [unstyled, if_pos rfl] at h
        have := (Prod.mk.inj (List.cons.inj h).1).2
        exact this.symm
  · rintro (rfl | h)
    · exact Tail.unstyled_default rest
    · cases rest with
      | nil => rfl
      | cons y l =>
        obtain ⟨c, st⟩ := y
        rw [unstyled, if_neg (h _ rfl)]

end

/-- C106 for `io::Ansi`: the bytes sent, read as UTF-8. -/
theorem C106_io {U : Type} [StdIoWrite U] (k : IoSink U) (t : U) (calls : List Arguments) (logs : List (List Chunk))
    (hl : Logs calls logs) (bytes : Bytes) (h : IoAnsiFmtSent k t calls bytes ∨ IoAnsiFmtFinished k t calls bytes)
    (kind : Vt.Kind) (pre rest : Styled) (cur : Style)
    (hf : flatten logs.flatten = pre ++ ('\n', cur) :: rest) (hin : ∀ x ∈ rest, x.1 ∉ Vt.acts kind) :
    ∃ out, decodeUtf8 bytes = some out ∧
      (Vt.Screen.fresh.feed kind (dropLines ((text pre).count '\n' + 1) out)).events =
        Vt.seenAfter kind.boldFaint cur [] rest := by
  rcases h with h | h
  · obtain ⟨out, h1, h2⟩ := C65_ansi_is_text k t calls logs hl bytes h
    exact ⟨out, h1, C106_ansi _ _ _ _ (.inl h2) kind pre rest cur hf hin⟩
  · obtain ⟨out, h1, h2⟩ := C65_ansi_finished_is_text k t calls logs hl bytes h
    exact ⟨out, h1, C106_ansi _ _ _ _ (.inr h2) kind pre rest cur hf hin⟩

/-! ### Samples -/

/-- Two red lines and a bold one; the hypotheses are met. Without the first line, on a terminal the second line is not red,
and the third is right. -/
example :
    let red : Style := ⟨.Red, .Default, .Normal⟩
    let bold : Style := ⟨.Default, .Default, .Bold⟩
    let chs : List Chunk := [(str "a\nb", red), (str "\n", Style.default), (str "c", bold)]
    (∃ out, AnsiFinished stringSink StdString.new chs out) ∧ (∃ out, HtmlFinished stringSink StdString.new chs out) ∧
    (flatten chs = [('a', red)] ++ ('\n', red) :: [('b', red), ('\n', Style.default), ('c', bold)]) ∧
    (∀ kind, Vt.seenAfter kind red [] [('b', red), ('\n', Style.default), ('c', bold)] =
      [.print 'b' .plain, .execute '\n', .print 'c' { Vt.Pen.plain with bold := true }]) ∧
    Browser.unstyled red [('b', red), ('\n', Style.default), ('c', bold)] =
      [('b', Style.default), ('\n', Style.default), ('c', bold)] ∧
    dropLines 1 (ansiRender (flatten chs)) = str "b\x1b[0m\n\x1b[1mc\x1b[0m" ∧
    dropLines 2 (ansiRender (flatten chs)) = str "\x1b[1mc\x1b[0m" ∧
    dropLines 1 (htmlRender (flatten chs)) = str "b</span>\n<span style=font-weight:bolder>c</span>" := by
  refine ⟨⟨_, (ansiFinished_exists stringSink stringSink_accepting StdString.new _).2⟩,
    ⟨_, (htmlFinished_exists stringSink stringSink_accepting StdString.new _).2⟩, by decide +kernel, ?_, by decide +kernel⟩
  intro kind
  cases kind <;> decide +kernel

/-- A colour that changes is right, one that stays is not: red on blue, then green on blue. -/
example :
    let a : Style := ⟨.Red, .Blue, .Normal⟩
    let b : Style := ⟨.Green, .Blue, .Normal⟩
    Vt.seenAfter .exclusive a [] [('x', a), ('y', b)] = [.print 'x' .plain, .print 'y' { Vt.Pen.plain with fg := .indexed 2 }] ∧
    Browser.unstyled a [('x', a), ('y', b)] = [('x', Style.default), ('y', b)] := by
  decide

end Stylish.Props
