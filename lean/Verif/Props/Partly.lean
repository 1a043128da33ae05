import Verif.Spec.Partly
import Verif.Props.Vt
/-
C111: terminals that know only some of the codes.
-/

namespace Stylish.Props

open Spec Vt

variable {T : Type} [FmtWrite T]

/-! ## C111 -/

namespace Partly

theorem feed_append (known : Nat → Bool) (kind : Kind) (s : Screen) (a b : Str) :
    s.feedPartly known kind (a ++ b) = (s.feedPartly known kind a).feedPartly known kind b := by
  simp [Screen.feedPartly]

theorem step_other (known : Nat → Bool) (kind : Kind) (s : Screen) (c : Char) (hc : c ≠ 'm') :
    s.stepPartly known kind c = s.step kind c := by
  unfold Screen.stepPartly
  split
  · rw [if_neg hc]
  · rfl

theorem step_ground (known : Nat → Bool) (kind : Kind) (p : Pen) (es : List Event) (c : Char) :
    Screen.stepPartly known kind ⟨.ground, p, es⟩ c = Screen.step kind ⟨.ground, p, es⟩ c := rfl

theorem feed_other (known : Nat → Bool) (kind : Kind) (t : Str) : ∀ s : Screen, 'm' ∉ t →
    s.feedPartly known kind t = s.feed kind t := by
  induction t with
  | nil => intro s _; rfl
  | cons c t ih =>
    intro s h
    have e : s.feedPartly known kind (c :: t) = (s.stepPartly known kind c).feedPartly known kind t := rfl
    have e' : s.feed kind (c :: t) = (s.step kind c).feed kind t := rfl
    rw [e, e', step_other known kind s c (by rintro rfl; simp at h), ih _ (by simp at h; exact h.2)]

theorem feed_sgr (known : Nat → Bool) (kind : Kind) (p : Pen) (es : List Event) (s : Str) (hs : IsParams s) :
    Screen.feedPartly known kind ⟨.ground, p, es⟩ (str "\x1b[" ++ s ++ str "m") =
      ⟨.ground, sgrPartly known kind.boldFaint s p, es⟩ := by
  rw [feed_append, feed_other known kind (str "\x1b[" ++ s)]
  · rw [Vt.feed_append]
    have h1 : Screen.feed kind ⟨.ground, p, es⟩ (str "\x1b[") = ⟨.csi [] [] [], p, es⟩ := by
      simp [Screen.feed, Screen.step, str, Screen.goto, isControl, Screen.escFinal]
    rw [h1, Vt.feed_params kind p es [] s hs]
    simp [Screen.feedPartly, Screen.stepPartly, str]
  · intro h
    rcases List.mem_append.1 h with h | h
    · exact absurd h (by decide)
    · rcases hs _ h with h | h
      · exact absurd h (by decide)
      · exact absurd h (by decide)

/-- A simple parameter, if it is known. -/
def kseg (known : Nat → Bool) (kind : TermKind) (s : Pending × Pen) (q : Str) : Pending × Pen :=
  if known (paramVal q) then Vt.seg kind s q else s

theorem feed_segs (known : Nat → Bool) (kind : Kind) (p : Pen) (es : List Event) (segs : List Str)
    (h : ∀ q ∈ segs, IsParam q) :
    Screen.feedPartly known kind ⟨.ground, p, es⟩ (ansiSegs segs) =
      ⟨.ground, (segs.foldl (kseg known kind.boldFaint) (.none, p)).2, es⟩ := by
  cases segs with
  | nil => rfl
  | cons q qs =>
    have e : ansiSegs (q :: qs) = str "\x1b[" ++ (q ++ ansiRest qs) ++ str "m" := by
      simp [ansiSegs]
    rw [e, feed_sgr known kind p es _ (isParams_segs q qs h), sgrPartly, Vt.splitAt_segs q qs h]
    have key : ∀ (l : List Str) (s : Pending × Pen), (∀ q ∈ l, IsParam q) →
        (l.filter fun item => !skipped known item).foldl
          (fun s item => param kind.boldFaint s ((splitAt ':' item).map paramVal)) s =
          l.foldl (kseg known kind.boldFaint) s := by
      intro l
      induction l with
      | nil => intro s _; rfl
      | cons q l ih =>
        intro s hl
        have hq := Vt.splitAt_param q (hl q (by simp)) ':' (by decide)
        have hk : skipped known q = !known (paramVal q) := by simp [skipped, hq]
        rw [List.filter_cons, List.foldl_cons, hk, Bool.not_not]
        by_cases hkn : known (paramVal q) = true
        · rw [if_pos hkn, List.foldl_cons, hq, ih _ (fun r hr => hl r (by simp [hr]))]
          have e : kseg known kind.boldFaint s q = param kind.boldFaint s [paramVal q] := by
            rw [kseg, if_pos hkn]; rfl
          rw [e]
          rfl
        · have e : kseg known kind.boldFaint s q = s := by rw [kseg, if_neg hkn]
          rw [if_neg hkn, e, ih _ (fun r hr => hl r (by simp [hr]))]
    rw [key _ _ h]

theorem kseg_foreground (known : Nat → Bool) (kind : TermKind) (c : Color) (p : Pen) :
    kseg known kind (.none, p) (str (AnsiUtil.foreground c)) =
      (.none, { p with fg := if known (colorCode c) then ink c else p.fg }) := by
  have e : paramVal (str (AnsiUtil.foreground c)) = colorCode c := by cases c <;> decide
  rw [kseg, e]
  split
  · exact Vt.seg_foreground kind c p
  · rfl

theorem kseg_background (known : Nat → Bool) (kind : TermKind) (c : Color) (p : Pen) :
    kseg known kind (.none, p) (str (AnsiUtil.background c)) =
      (.none, { p with bg := if known (colorCode c + 10) then ink c else p.bg }) := by
  have e : paramVal (str (AnsiUtil.background c)) = colorCode c + 10 := by cases c <;> decide
  rw [kseg, e]
  split
  · exact Vt.seg_background kind c p
  · rfl

/-- The other attributes are not in force. -/
def Usual (p : Pen) : Prop := p = { Pen.plain with fg := p.fg, bg := p.bg, bold := p.bold, faint := p.faint }

/-- The pen is right as far as it goes. -/
structure Inv (known : Nat → Bool) (kind : TermKind) (clean : Prop) (cur : Style) (p : Pen) : Prop where
  plain : cur = Style.default → p = Pen.plain
  fg : known (colorCode cur.foreground) = true → p.fg = ink cur.foreground
  bg : known (colorCode cur.background + 10) = true → p.bg = ink cur.background
  flags : clean → p.bold = decide (cur.intensity = .Bold) ∧ p.faint = decide (cur.intensity = .Faint)
  usual : Usual p

theorem inv_plain (known : Nat → Bool) (kind : TermKind) (clean : Prop) : Inv known kind clean Style.default Pen.plain :=
  ⟨fun _ => rfl, fun _ => rfl, fun _ => rfl, fun _ => ⟨rfl, rfl⟩, rfl⟩

theorem kseg_intensity (known : Nat → Bool) (kind : TermKind) (i : Intensity) (p : Pen) :
    ∃ bold faint, kseg known kind (.none, p) (str (AnsiUtil.intensity i)) =
        (.none, { p with bold := bold, faint := faint }) ∧
      (knowsIntensity known → ∀ j : Intensity, p.bold = decide (j = .Bold) ∧ p.faint = decide (j = .Faint) →
        kind = .exclusive ∨ ¬ ((j = .Bold ∧ i = .Faint) ∨ (j = .Faint ∧ i = .Bold)) →
        bold = decide (i = .Bold) ∧ faint = decide (i = .Faint)) := by
  by_cases hk : known (paramVal (str (AnsiUtil.intensity i))) = true
  · refine ⟨(Vt.seg kind (.none, p) (str (AnsiUtil.intensity i))).2.bold,
      (Vt.seg kind (.none, p) (str (AnsiUtil.intensity i))).2.faint, ?_, ?_⟩
    · rw [kseg, if_pos hk]
      cases kind <;> cases i <;> rfl
    · rintro - j ⟨h1, h2⟩ h
      cases kind <;> cases i <;> cases j <;> simp_all [Vt.seg, param, simple, str, AnsiUtil.intensity, paramVal]
  · refine ⟨p.bold, p.faint, ?_, ?_⟩
    · rw [kseg, if_neg hk]
    · rintro ⟨h1, h2, h3⟩
      refine absurd ?_ hk
      cases i
      · exact h3
      · exact h1
      · exact h2

theorem feed_switch (known : Nat → Bool) (h0 : known 0 = true) (kind : Kind) (clean : Prop) (cur st : Style) (p : Pen)
    (es : List Event) (hp : Inv known kind.boldFaint clean cur p)
    (hc : clean → knowsIntensity known ∧ (kind.boldFaint = .exclusive ∨ ¬ BoldFaint cur st)) :
    ∃ p', Screen.feedPartly known kind ⟨.ground, p, es⟩ (ansiSwitch cur st) = ⟨.ground, p', es⟩ ∧
      Inv known kind.boldFaint clean st p' := by
  unfold ansiSwitch
  split
  · rename_i hd
    have e : Ansi.resetSeq = str "\x1b[" ++ ['0'] ++ str "m" := by decide
    refine ⟨Pen.plain, ?_, by rw [hd.2]; exact inv_plain ..⟩
    rw [e, feed_sgr known kind _ es _ (by simp [IsParams, Char.isDigit])]
    have e1 : sgrPartly known kind.boldFaint ['0'] p = Pen.plain := by
      have e2 : skipped known ['0'] = false := by simp [skipped, splitAt, paramVal, h0]
      simp only [sgrPartly, splitAt, show ('0' : Char) ≠ ';' by decide, if_false, List.filter_cons, e2]
      rfl
    rw [e1]
  · rename_i hd
    rw [feed_segs known kind p es _ (isParam_segments _)]
    refine ⟨_, rfl, ?_⟩
    obtain ⟨cf, cb, ci⟩ := cur
    obtain ⟨sf, sb, si⟩ := st
    have hdef : (⟨sf, sb, si⟩ : Style) = Style.default → (⟨cf, cb, ci⟩ : Style) = ⟨sf, sb, si⟩ := by
      intro h
      exact Classical.byContradiction fun hne => hd ⟨hne, h⟩
    obtain ⟨p1, p2, p3, p4, p5⟩ := hp
    obtain ⟨q, hq⟩ : ∃ q : Pen, q = { p with
        fg := if cf = sf then p.fg else if known (colorCode sf) then ink sf else p.fg,
        bg := if cb = sb then p.bg else if known (colorCode sb + 10) then ink sb else p.bg } := ⟨_, rfl⟩
    have hfold : (Ansi.segments (Style.diffFrom ⟨sf, sb, si⟩ ⟨cf, cb, ci⟩)).foldl (kseg known kind.boldFaint) (.none, p) =
        if ci = si then (.none, q) else kseg known kind.boldFaint (.none, q) (str (AnsiUtil.intensity si)) := by
      subst hq
      simp only [Ansi.segments, Style.diffFrom, diffField]
      by_cases h1 : cf = sf <;> by_cases h2 : cb = sb <;> by_cases h3 : ci = si <;>
        simp [h1, h2, h3, kseg_foreground, kseg_background]
    have hfg : known (colorCode sf) = true → q.fg = ink sf := by
      intro hk
      subst hq
      by_cases h1 : cf = sf
      · simp only [h1, if_true]; subst h1; exact p2 hk
      · simp [h1, hk]
    have hbg : known (colorCode sb + 10) = true → q.bg = ink sb := by
      intro hk
      subst hq
      by_cases h1 : cb = sb
      · simp only [h1, if_true]; subst h1; exact p3 hk
      · simp [h1, hk]
    have hqb : q.bold = p.bold ∧ q.faint = p.faint := by subst hq; exact ⟨rfl, rfl⟩
    have hqu : Usual q := by
      unfold Usual at p5 ⊢
      subst hq
      obtain ⟨a1, a2, a3, a4, a5, a6, a7, a8, a9, a10⟩ := p
      simp only [Pen.plain, Pen.mk.injEq, true_and] at p5 ⊢
      exact p5
    have hpl : (⟨sf, sb, si⟩ : Style) = Style.default → q = p := by
      intro h
      have := hdef h
      simp only [Style.mk.injEq] at this
      subst hq
      simp [this.1, this.2.1]
    rw [hfold]
    by_cases hi : ci = si
    · rw [if_pos hi]
      subst hi
      refine ⟨fun h => ?_, hfg, hbg, fun h => ?_, hqu⟩
      · show q = _
        rw [hpl h]
        exact p1 ((hdef h).trans h)
      · show q.bold = _ ∧ q.faint = _
        rw [hqb.1, hqb.2]; exact p4 h
    · rw [if_neg hi]
      obtain ⟨bo, fa, e1, e2⟩ := kseg_intensity known kind.boldFaint si q
      rw [e1]
      refine ⟨fun h => ?_, hfg, hbg, fun h => ?_, ?_⟩
      · have := hdef h
        simp only [Style.mk.injEq] at this
        exact absurd this.2.2 hi
      · obtain ⟨hk, hb⟩ := hc h
        exact e2 hk ci (by rw [hqb.1, hqb.2]; exact p4 h) hb
      · unfold Usual at hqu ⊢
        obtain ⟨a1, a2, a3, a4, a5, a6, a7, a8, a9, a10⟩ := q
        simp only [Pen.plain, Pen.mk.injEq, true_and] at hqu ⊢
        exact hqu

/-- The events of a text, the pen right as far as it goes. -/
theorem feed_render (known : Nat → Bool) (h0 : known 0 = true) (kind : Kind) (clean : Prop) (t : Styled) :
    ∀ (cur : Style) (p : Pen) (es : List Event), (∀ x ∈ t, x.1 ∉ acts kind) → Inv known kind.boldFaint clean cur p →
    (clean → knowsIntensity known ∧ (kind.boldFaint = .exclusive ∨ NoBoldFaintFrom cur t)) →
    ∃ p' es', Screen.feedPartly known kind ⟨.ground, p, es⟩ (renderWith ansiSwitch plainEnc cur t) =
        ⟨.ground, p', es ++ es'⟩ ∧
      Inv known kind.boldFaint clean (lastStyle cur t) p' ∧ OneToOne (PartlyRight known clean) t es' := by
  induction t with
  | nil => intro cur p es _ hp _; exact ⟨p, [], by simp [renderWith, Screen.feedPartly], hp, trivial⟩
  | cons x t ih =>
    obtain ⟨c, st⟩ := x
    intro cur p es hin hp hc
    obtain ⟨p1, h1, h2⟩ := feed_switch known h0 kind clean cur st p es hp
      (fun h => ⟨(hc h).1, (hc h).2.imp id And.left⟩)
    have h3 : Screen.feedPartly known kind ⟨.ground, p1, es⟩ [c] =
        ⟨.ground, p1, es ++ [if isControl c then .execute c else .print c p1]⟩ := by
      rw [← Vt.step_text_any kind p1 es c (hin (c, st) (by simp))]
      rfl
    obtain ⟨p', es', h4, h5, h6⟩ := ih st p1 (es ++ [if isControl c then .execute c else .print c p1])
      (fun x hx => hin x (by simp [hx])) h2 (fun h => ⟨(hc h).1, (hc h).2.imp id And.right⟩)
    refine ⟨p', (if isControl c then .execute c else .print c p1) :: es', ?_, h5, ?_, h6⟩
    · rw [renderWith, feed_append, feed_append, h1, plainEnc, h3, h4, List.append_assoc]
      rfl
    · unfold PartlyRight
      by_cases hcc : isControl c = true
      · simp [hcc]
      · simp only [hcc, if_false, Bool.false_eq_true]
        refine ⟨p1, rfl, h2.plain, h2.fg, h2.bg, fun h => ?_, h2.usual⟩
        rw [(h2.flags h).1, (h2.flags h).2]
        simp

end Partly

/-- C111: on a terminal that knows any set of SGR parameters at all, as long as 0 is among them, every character of the output is
shown in order, in the default style plain, otherwise right in each respect the terminal knows the parameter for. -/
theorem C111_shows (k : FmtSink T) (t : T) (chs : List Chunk) (out : Str)
    (h : AnsiWrote k t chs out ∨ AnsiFinished k t chs out) (known : Nat → Bool) (h0 : known 0 = true) (kind : Kind)
    (hin : ∀ x ∈ flatten chs, x.1 ∉ acts kind) :
    OneToOne (PartlyRight known
        (knowsIntensity known ∧ (kind.boldFaint = .exclusive ∨ NoBoldFaint (flatten chs))))
      (flatten chs) (Screen.fresh.feedPartly known kind out).events := by
  have e : Screen.fresh = ⟨.ground, Pen.plain, []⟩ := rfl
  obtain ⟨p, es, h1, h2, h3⟩ := Partly.feed_render known h0 kind
    (knowsIntensity known ∧ (kind.boldFaint = .exclusive ∨ NoBoldFaint (flatten chs))) (flatten chs) Style.default Pen.plain []
    hin (Partly.inv_plain ..) (fun h => ⟨h.1, h.2.imp id (noBoldFaint_from _).1⟩)
  rcases h with h | h
  · rw [ansiWrote_eq k t chs out h, e, h1]
    exact h3
  · obtain ⟨p', h4, h5⟩ := Partly.feed_switch known h0 kind False (lastStyle Style.default (flatten chs)) Style.default p
      ([] ++ es) ⟨h2.plain, h2.fg, h2.bg, False.elim, h2.usual⟩ False.elim
    rw [ansiFinished_eq k t chs out h, ansiRender, Partly.feed_append, e, h1, h4]
    exact h3

/-- C111: and after `finish` it is as it was after power-up. -/
theorem C111_resets (k : FmtSink T) (t : T) (chs : List Chunk) (out : Str) (h : AnsiFinished k t chs out)
    (known : Nat → Bool) (h0 : known 0 = true) (kind : Kind) (hin : ∀ x ∈ flatten chs, x.1 ∉ acts kind) :
    (Screen.fresh.feedPartly known kind out).state = .ground ∧
    (Screen.fresh.feedPartly known kind out).pen = Pen.plain := by
  have e : Screen.fresh = ⟨.ground, Pen.plain, []⟩ := rfl
  obtain ⟨p, es, h1, h2, -⟩ := Partly.feed_render known h0 kind False (flatten chs) Style.default Pen.plain []
    hin (Partly.inv_plain ..) False.elim
  obtain ⟨p', h4, h5⟩ := Partly.feed_switch known h0 kind False (lastStyle Style.default (flatten chs)) Style.default p
    ([] ++ es) h2 False.elim
  rw [ansiFinished_eq k t chs out h, ansiRender, Partly.feed_append, e, h1, h4]
  exact ⟨rfl, h5.plain rfl⟩

theorem Partly.all_right (known : Nat → Bool) (clean : Prop) (hclean : clean) (t : Styled) : ∀ es : List Event,
    (∀ x ∈ t, known (colorCode x.2.foreground) = true ∧ known (colorCode x.2.background + 10) = true) →
    OneToOne (PartlyRight known clean) t es → es = t.map expected := by
  induction t with
  | nil =>
    intro es _ h
    cases es with
    | nil => rfl
    | cons => exact h.elim
  | cons x t ih =>
    intro es hk h
    cases es with
    | nil => exact h.elim
    | cons e es =>
      obtain ⟨h1, h2⟩ := h
      rw [List.map_cons, ih es (fun x hx => hk x (by simp [hx])) h2]
      congr 1
      unfold PartlyRight at h1
      unfold expected
      by_cases hc : isControl x.1 = true
      · rw [if_pos hc] at h1 ⊢; exact h1
      · rw [if_neg hc] at h1 ⊢
        obtain ⟨p, rfl, -, hf, hb, hi, hu⟩ := h1
        obtain ⟨k1, k2⟩ := hk x (by simp)
        obtain ⟨i1, i2⟩ := hi hclean
        rw [hu, hf k1, hb k2]
        congr 1
        simp only [Pen.ofStyle, Pen.plain, Pen.mk.injEq, true_and, and_true]
        exact ⟨by rw [Bool.eq_iff_iff, i1]; simp, by rw [Bool.eq_iff_iff, i2]; simp⟩

/-- C111: so a terminal that knows 0, the parameters for the colours of the text and those for intensity shows it right. -/
theorem C111_enough (k : FmtSink T) (t : T) (chs : List Chunk) (out : Str)
    (h : AnsiWrote k t chs out ∨ AnsiFinished k t chs out) (known : Nat → Bool) (h0 : known 0 = true)
    (hi : knowsIntensity known) (kind : Kind) (hb : kind.boldFaint = .exclusive ∨ NoBoldFaint (flatten chs))
    (hin : ∀ x ∈ flatten chs, x.1 ∉ acts kind)
    (hk : ∀ x ∈ flatten chs, known (colorCode x.2.foreground) = true ∧ known (colorCode x.2.background + 10) = true) :
    (Screen.fresh.feedPartly known kind out).events = (flatten chs).map expected :=
  Partly.all_right known _ ⟨hi, hb⟩ _ _ hk (C111_shows k t chs out h known h0 kind hin)

/-- C111: a terminal that knows everything is that of C71. -/
theorem C111_all (kind : Kind) (s : Screen) (text : Str) : s.feedPartly (fun _ => true) kind text = s.feed kind text := by
  have one : ∀ (s : Screen) (c : Char), s.stepPartly (fun _ => true) kind c = s.step kind c := by
    intro s c
    unfold Screen.stepPartly
    split
    · rename_i params e
      by_cases hc : c = 'm'
      · subst hc
        rw [if_pos rfl]
        have hs : ∀ item, skipped (fun _ => true) item = false := by
          intro item
          unfold skipped
          split <;> rfl
        have e1 : sgrPartly (fun _ => true) kind.boldFaint params s.pen = sgr kind.boldFaint params s.pen := by
          have e2 : ∀ l : List Str, (l.filter fun item => !skipped (fun _ => true) item) = l := fun l =>
            List.filter_eq_self.2 fun item _ => by rw [hs]; rfl
          rw [sgrPartly, Vt.sgr, e2]
        rw [e1]
        simp [Screen.step, e, isControl, Screen.csiChar, Screen.csiFinal]
      · rw [if_neg hc]
    · rfl
  induction text generalizing s with
  | nil => rfl
  | cons c text ih =>
    have e : s.feedPartly (fun _ => true) kind (c :: text) = (s.stepPartly (fun _ => true) kind c).feedPartly _ kind text := rfl
    rw [e, one, ih]
    rfl

/-! ### Samples -/

/-- Text in several styles, on a terminal with eight colours and on one that only knows bold. -/
example :
    let chs : List Chunk := [(str "a\n", ⟨.Red, .BrightBlue, .Bold⟩), (str "é", ⟨.Red, .Default, .Normal⟩), (str "x", Style.default)]
    AnsiFinished stringSink StdString.new chs (ansiRender (flatten chs)) ∧
    (∀ kind, ∀ x ∈ flatten chs, x.1 ∉ acts kind) ∧ knowsIntensity (· < 90) ∧ NoBoldFaint (flatten chs) ∧
    (Screen.fresh.feedPartly (· < 90) ⟨.independent, true⟩ (ansiRender (flatten chs))).events =
      [.print 'a' { Pen.plain with fg := .indexed 1, bold := true }, .execute '\n',
       .print 'é' { Pen.plain with fg := .indexed 1 }, .print 'x' Pen.plain] ∧
    (Screen.fresh.feedPartly (fun n => n = 0 ∨ n = 1) ⟨.independent, true⟩ (ansiRender (flatten chs))).events =
      [.print 'a' { Pen.plain with bold := true }, .execute '\n', .print 'é' { Pen.plain with bold := true },
       .print 'x' Pen.plain] := by
  refine ⟨(ansiFinished_exists stringSink stringSink_accepting StdString.new _).2, ?_, by unfold knowsIntensity; decide, ?_,
    by decide +kernel, by decide +kernel⟩
  · rintro ⟨b, c⟩
    cases b <;> cases c <;> decide
  · rw [noBoldFaint_from]
    simp [NoBoldFaintFrom, BoldFaint, flatten, paint, str, Style.default]

/-- C111: no more than that. A colour the terminal does not know is not shown as no colour: after red text, bright green text is
red on a terminal with eight colours. -/
theorem C111_stale_counterexample :
    let chs : List Chunk := [(str "a", ⟨.Red, .Default, .Normal⟩), (str "b", ⟨.BrightGreen, .Default, .Normal⟩)]
    ∃ out, AnsiFinished stringSink StdString.new chs out ∧
      (Screen.fresh.feedPartly (· < 90) ⟨.exclusive, false⟩ out).events =
        [.print 'a' { Pen.plain with fg := .indexed 1 }, .print 'b' { Pen.plain with fg := .indexed 1 }] := by
  intro chs
  exact ⟨_, (ansiFinished_exists stringSink stringSink_accepting StdString.new chs).2, by decide +kernel⟩

end Stylish.Props
