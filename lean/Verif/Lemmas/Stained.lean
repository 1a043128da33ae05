import Verif.Spec.Stained
import Verif.Lemmas.Vt
/-
Lemmas for C104.
-/

namespace Stylish

open Spec Vt

namespace Stained

theorem back_snoc {α : Type} (p : α → Bool) (l : List α) (a : α) :
    back p (l ++ [a]) = (back p l || (p a && l.any (fun x => !p x))) := by
  unfold back
  induction l with
  | nil => cases h : p a <;> simp [h]
  | cons x l ih =>
    cases h : p x with
    | true => simp [List.dropWhile_cons, h, ih]
    | false => simp [List.dropWhile_cons, h]

theorem back_again {α : Type} (p : α → Bool) (l : List α) (a b : α) (h : p a = p b) :
    back p (l ++ [a] ++ [b]) = back p (l ++ [a]) := by
  rw [back_snoc, back_snoc, ← h]
  cases hb : p a <;> simp [hb]

/-- What changing the intensity does to bold and faint. -/
def turn (kind : TermKind) (i : Intensity) (w : Bool × Bool) : Bool × Bool :=
  match kind, i with
  | _, .Normal => (false, false)
  | .exclusive, .Bold => (true, false)
  | .exclusive, .Faint => (false, true)
  | .independent, .Bold => (true, w.2)
  | .independent, .Faint => (w.1, true)

theorem seg_turn (kind : TermKind) (i : Intensity) (p : Pen) :
    seg kind (.none, p) (str (AnsiUtil.intensity i)) =
      (.none, { p with bold := (turn kind i (p.bold, p.faint)).1, faint := (turn kind i (p.bold, p.faint)).2 }) := by
  cases kind <;> cases i <;> rfl

/-- The effect of the sequence for a change of style, other than the reset. -/
theorem feed_change (kind : Kind) (cur st : Style) (p : Pen) (es : List Event)
    (h : ¬ (cur ≠ st ∧ st = Style.default)) :
    Screen.feed kind ⟨.ground, p, es⟩ (ansiSwitch cur st) =
      ⟨.ground,
        { p with
          fg := if cur.foreground = st.foreground then p.fg else ink st.foreground
          bg := if cur.background = st.background then p.bg else ink st.background
          bold := if cur.intensity = st.intensity then p.bold else (turn kind.boldFaint st.intensity (p.bold, p.faint)).1
          faint := if cur.intensity = st.intensity then p.faint
            else (turn kind.boldFaint st.intensity (p.bold, p.faint)).2 }, es⟩ := by
  unfold ansiSwitch
  rw [if_neg h, Vt.feed_segs kind _ es _ (isParam_segments _)]
  congr 1
  obtain ⟨cf, cb, ci⟩ := cur
  obtain ⟨sf, sb, si⟩ := st
  simp only [Ansi.segments, Style.diffFrom, diffField]
  by_cases h1 : cf = sf <;> by_cases h2 : cb = sb <;> by_cases h3 : ci = si <;>
    simp [h1, h2, h3, Vt.seg_foreground, Vt.seg_background, seg_turn]

/-- `cur` is the style of the last character, or none if there is no character. -/
def Last (styles : List Style) (cur : Style) : Prop :=
  (styles = [] ∧ cur = Style.default) ∨ ∃ l, styles = l ++ [cur]

theorem Last.mem {styles : List Style} {cur : Style} (h : Last styles cur) (hc : cur ≠ Style.default) : cur ∈ styles := by
  rcases h with ⟨-, h⟩ | ⟨l, rfl⟩
  · exact absurd h hc
  · simp

theorem back_same {α : Type} (p : α → Bool) (f : Style → α) {styles : List Style} {cur st : Style}
    (h : Last styles cur) (he : p (f cur) = p (f st)) (hd : p (f Style.default) = true) :
    back p ((styles ++ [st]).map f) = back p (styles.map f) := by
  rcases h with ⟨rfl, rfl⟩ | ⟨l, rfl⟩
  · rw [hd] at he
    simp [back, ← he]
  · simpa using back_again p (l.map f) (f cur) (f st) he

theorem cleaned_same {styles : List Style} {cur st : Style} (h : Last styles cur)
    (hn : ¬ (cur ≠ st ∧ st = Style.default)) : cleaned (styles ++ [st]) = cleaned styles := by
  unfold cleaned
  by_cases hs : st = Style.default
  · have : cur = st := Classical.byContradiction fun hc => hn ⟨hc, hs⟩
    subst this
    simpa using back_same (· = Style.default) id h rfl (by simp)
  · rw [back_snoc]
    simp [hs]

theorem cleaned_reset {styles : List Style} {cur : Style} (h : Last styles cur) (hc : cur ≠ Style.default) :
    cleaned (styles ++ [Style.default]) = true := by
  unfold cleaned
  rw [back_snoc]
  have : styles.any (fun x => !decide (x = Style.default)) = true := by
    simp only [List.any_eq_true]
    exact ⟨cur, h.mem hc, by simp [hc]⟩
  simp [this]

/-- A colour of the text is right if the text has had one. -/
theorem had_color (get : Style → Color) (hd : get Style.default = .Default) {styles : List Style} {cur st : Style}
    (h : Last styles cur) (p q : Ink) (b : Bool)
    (hq : q = if b ∨ styles.any (fun x => get x ≠ .Default) then ink (get cur) else p) :
    (if get cur = get st then q else ink (get st)) =
      if b ∨ (styles ++ [st]).any (fun x => get x ≠ .Default) then ink (get st) else p := by
  subst hq
  have hmem : get cur ≠ .Default → styles.any (fun x => get x ≠ .Default) = true := by
    intro hc
    have : cur ≠ Style.default := by rintro rfl; exact hc hd
    simp only [List.any_eq_true]
    exact ⟨cur, h.mem this, by simpa using hc⟩
  rw [List.any_append]
  cases b with
  | true => simp; intro e; rw [e]
  | false =>
    by_cases e : get cur = get st
    · rw [if_pos e]
      by_cases hs : get st = .Default
      · simp [hs, e]
      · have := hmem (by rw [e]; exact hs)
        simp only [this, e, Bool.true_or, or_true, if_true]
    · rw [if_neg e]
      by_cases hs : get st = .Default
      · have := hmem (by rw [← hs]; exact e)
        simp only [this, Bool.true_or, or_true, if_true]
      · simp [hs]

theorem strong_snoc (styles : List Style) (st : Style) :
    strong (styles ++ [st]) = if st.intensity = .Normal then [] else st.intensity :: strong styles := by
  unfold strong
  simp [List.takeWhile_cons]

/-- Bold and faint after one more character. -/
theorem weights_step (kind : TermKind) (p : Pen) {styles : List Style} {cur st : Style} (h : Last styles cur)
    (hn : ¬ (cur ≠ st ∧ st = Style.default)) :
    (if cur.intensity = st.intensity then weights kind p styles cur
      else turn kind st.intensity (weights kind p styles cur)) = weights kind p (styles ++ [st]) st := by
  have hmem : cur.intensity ≠ .Normal → styles.any (fun x => x.intensity ≠ .Normal) = true := by
    intro hc
    have : cur ≠ Style.default := by rintro rfl; exact hc rfl
    simp only [List.any_eq_true]
    exact ⟨cur, h.mem this, by simpa using hc⟩
  unfold weights
  rw [cleaned_same h hn]
  cases kind with
  | exclusive =>
    simp only [if_true, List.any_append]
    by_cases e : cur.intensity = st.intensity
    · rw [if_pos e]
      by_cases hs : st.intensity = .Normal
      · simp [hs, e]
      · have := hmem (by rw [e]; exact hs)
        simp only [this, e, Bool.true_or, or_true, if_true]
    · rw [if_neg e]
      have hc : cleaned styles = true ∨ (styles.any (fun x => x.intensity ≠ .Normal) ||
          [st].any (fun x => x.intensity ≠ .Normal)) = true := by
        by_cases hs : st.intensity = .Normal
        · have := hmem (by rw [← hs]; exact e)
          simp only [this, Bool.true_or, or_true]
        · simp [hs]
      rw [if_pos hc]
      cases st.intensity <;> rfl
  | independent =>
    simp only [reduceCtorEq, if_false, strong_snoc]
    by_cases e : cur.intensity = st.intensity
    · have hb := back_same (st := st) (· = .Normal) Style.intensity h (by simp [e]) rfl
      rw [if_pos e, hb]
      by_cases hs : st.intensity = .Normal
      · have : strong styles = [] := by
          rcases h with ⟨rfl, -⟩ | ⟨l, rfl⟩
          · rfl
          · rw [strong_snoc, if_pos (by rw [e, hs])]
        simp [hs, this]
      · have : ∃ l, strong styles = st.intensity :: l := by
          rcases h with ⟨-, rfl⟩ | ⟨l, rfl⟩
          · exact absurd e.symm hs
          · rw [strong_snoc, if_neg (by rw [e]; exact hs), e]
            exact ⟨_, rfl⟩
        obtain ⟨l, hl⟩ := this
        rw [if_neg hs, hl]
        cases hi : st.intensity <;> simp
    · rw [if_neg e]
      by_cases hs : st.intensity = .Normal
      · have hb : back (· = .Normal) ((styles ++ [st]).map Style.intensity) = true := by
          rw [List.map_append, List.map_cons, List.map_nil, back_snoc]
          have := hmem (by rw [← hs]; exact e)
          simp only [hs, decide_true, Bool.true_and, List.any_map]
          simp only [List.any_eq_true] at this
          obtain ⟨x, hx, hx'⟩ := this
          have : (styles.any ((fun x => !decide (x = Intensity.Normal)) ∘ Style.intensity)) = true :=
            List.any_eq_true.2 ⟨x, hx, by simpa using hx'⟩
          simp [this]
        rw [hb]
        simp [hs, turn]
      · have hb : back (· = .Normal) ((styles ++ [st]).map Style.intensity) =
            back (· = .Normal) (styles.map Style.intensity) := by
          rw [List.map_append, List.map_cons, List.map_nil, back_snoc]
          simp [hs]
        rw [hb, if_neg hs]
        cases hi : st.intensity <;> simp_all [turn]

/-- One change of style. -/
theorem switch_from (kind : Kind) (p : Pen) {styles : List Style} {cur : Style} (h : Last styles cur) (st : Style)
    (es : List Event) :
    Screen.feed kind ⟨.ground, lookFrom kind.boldFaint p styles cur, es⟩ (ansiSwitch cur st) =
      ⟨.ground, lookFrom kind.boldFaint p (styles ++ [st]) st, es⟩ := by
  by_cases hn : cur ≠ st ∧ st = Style.default
  · unfold ansiSwitch
    obtain ⟨hc, rfl⟩ := hn
    have hr := cleaned_reset h hc
    have e : Ansi.resetSeq = str "\x1b[" ++ ['0'] ++ str "m" := by decide
    rw [if_pos ⟨hc, rfl⟩, e, Vt.feed_sgr kind _ es _ (by simp [IsParams, Char.isDigit]), Vt.sgr_zero]
    congr 1
    have hs : strong (styles ++ [Style.default]) = [] := by rw [strong_snoc]; rfl
    simp only [lookFrom, weights, hr, hs]
    cases kind.boldFaint <;> rfl
  · rw [feed_change kind cur st _ es hn]
    congr 1
    have hw := weights_step kind.boldFaint p h hn
    have h1 := had_color Style.foreground rfl h p.fg (lookFrom kind.boldFaint p styles cur).fg (cleaned styles) rfl
      (st := st)
    have h2 := had_color Style.background rfl h p.bg (lookFrom kind.boldFaint p styles cur).bg (cleaned styles) rfl
      (st := st)
    rw [h1, h2]
    simp only [lookFrom, cleaned_same h hn, ← hw]
    by_cases e : cur.intensity = st.intensity
    · simp only [if_pos e]
    · simp only [if_neg e]

/-- What happens for a text, from any rendition. -/
theorem render_from (kind : Kind) (p : Pen) (t : Styled) (hin : ∀ x ∈ t, x.1 ∉ acts kind) {styles : List Style}
    {cur : Style} (h : Last styles cur) (es : List Event) :
    Screen.feed kind ⟨.ground, lookFrom kind.boldFaint p styles cur, es⟩ (renderWith ansiSwitch plainEnc cur t) =
      ⟨.ground, lookFrom kind.boldFaint p (styles ++ t.map Prod.snd) (lastStyle cur t),
        es ++ seenFrom kind.boldFaint p styles t⟩ ∧
    Last (styles ++ t.map Prod.snd) (lastStyle cur t) := by
  induction t generalizing styles cur es with
  | nil => simpa [renderWith, Screen.feed, seenFrom, lastStyle] using h
  | cons x t ih =>
    obtain ⟨c, st⟩ := x
    have ih := ih (fun y hy => hin y (by simp [hy])) (.inr ⟨styles, rfl⟩ : Last (styles ++ [st]) st)
      (es ++ [if isControl c then .execute c else .print c (lookFrom kind.boldFaint p (styles ++ [st]) st)])
    rw [renderWith, Vt.feed_append, Vt.feed_append, switch_from kind p h st es, plainEnc,
      Vt.step_text_any kind _ _ c (hin (c, st) (by simp)), ih.1]
    refine ⟨by simp [seenFrom, lastStyle], by simpa [lastStyle] using ih.2⟩

end Stained

end Stylish
