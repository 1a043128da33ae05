import Verif.Lemmas.Ansi
import Verif.Spec.Vt
/-
The escape sequences of the ANSI writer on the video terminal of Spec/Vt.
-/

namespace Stylish

open Spec Vt

namespace Vt

theorem feed_append (kind : Kind) (s : Screen) (a b : Str) : s.feed kind (a ++ b) = (s.feed kind a).feed kind b := by
  simp [Screen.feed]

theorem splitAt_param (p : Str) (hp : IsParam p) (sep : Char) (hs : sep.isDigit = false) : splitAt sep p = [p] := by
  induction p with
  | nil => rfl
  | cons c p ih =>
    have hc : c ≠ sep := digit_ne (hp c (by simp)) hs
    rw [splitAt, if_neg hc, ih (fun d hd => hp d (by simp [hd]))]

theorem splitAt_cons (p rest : Str) (hp : IsParam p) :
    splitAt ';' (p ++ ';' :: rest) = p :: splitAt ';' rest := by
  induction p with
  | nil => simp [splitAt]
  | cons c p ih =>
    have hc : c ≠ ';' := digit_ne (hp c (by simp)) (by decide)
    rw [List.cons_append, splitAt, if_neg hc, ih (fun d hd => hp d (by simp [hd]))]

theorem splitAt_segs (p : Str) (ps : List Str) (h : ∀ q ∈ p :: ps, IsParam q) :
    splitAt ';' (p ++ ansiRest ps) = p :: ps := by
  induction ps generalizing p with
  | nil => simpa [ansiRest] using splitAt_param p (h p (by simp)) ';' (by decide)
  | cons q ps ih =>
    have e : ansiRest (q :: ps) = ';' :: (q ++ ansiRest ps) := by simp [ansiRest]
    rw [e, splitAt_cons _ _ (h p (by simp)), ih q (fun r hr => h r (List.mem_cons_of_mem _ hr))]

theorem digit_range {c : Char} (h : c.isDigit = true ∨ c = ';') : 0x30 ≤ c.toNat ∧ c.toNat < 0x3C := by
  rcases h with h | rfl
  · have : 48 ≤ c.toNat ∧ c.toNat ≤ 57 := by
      simp only [Char.isDigit, Bool.and_eq_true, decide_eq_true_eq] at h
      exact ⟨h.1, h.2⟩
    omega
  · decide

theorem feed_params (kind : Kind) (p : Pen) (es : List Event) (ps s : Str) (hs : IsParams s) :
    Screen.feed kind ⟨.csi [] ps [], p, es⟩ s = ⟨.csi [] (ps ++ s) [], p, es⟩ := by
  induction s generalizing ps with
  | nil => simp [Screen.feed]
  | cons c s ih =>
    have hr := digit_range (hs c (by simp))
    have n1 : c ≠ '\x1b' := by rintro rfl; exact absurd hr (by decide)
    have n2 : c ≠ '\x18' := by rintro rfl; exact absurd hr (by decide)
    have n3 : c ≠ '\x1a' := by rintro rfl; exact absurd hr (by decide)
    have n4 : ¬ (0x80 ≤ c.toNat) := by omega
    have n5 : isControl c = false := by simp [isControl]; omega
    have n6 : ¬ c.toNat < 48 := by omega
    have : Screen.step kind ⟨.csi [] ps [], p, es⟩ c = ⟨.csi [] (ps ++ [c]) [], p, es⟩ := by
      simp [Screen.step, n1, n2, n3, n4, n5, Screen.csiChar, Screen.goto, n6, hr.2]
    simp only [Screen.feed, List.foldl_cons, this]
    have := ih (ps ++ [c]) (fun d hd => hs d (by simp [hd]))
    simpa [Screen.feed] using this

/-- A whole SGR sequence, in ground state. -/
theorem feed_sgr (kind : Kind) (p : Pen) (es : List Event) (s : Str) (hs : IsParams s) :
    Screen.feed kind ⟨.ground, p, es⟩ (str "\x1b[" ++ s ++ str "m") =
      ⟨.ground, Vt.sgr kind.boldFaint s p, es⟩ := by
  rw [feed_append, feed_append]
  have h1 : Screen.feed kind ⟨.ground, p, es⟩ (str "\x1b[") = ⟨.csi [] [] [], p, es⟩ := by
    simp [Screen.feed, Screen.step, str, Screen.goto, isControl, Screen.escFinal]
  rw [h1, feed_params kind p es [] s hs]
  simp [Screen.feed, Screen.step, str, isControl, Screen.csiChar, Screen.csiFinal]

/-- A simple parameter. -/
def seg (kind : TermKind) (s : Pending × Pen) (q : Str) : Pending × Pen := param kind s [paramVal q]

theorem feed_segs (kind : Kind) (p : Pen) (es : List Event) (segs : List Str) (h : ∀ q ∈ segs, IsParam q) :
    Screen.feed kind ⟨.ground, p, es⟩ (ansiSegs segs) =
      ⟨.ground, (segs.foldl (seg kind.boldFaint) (.none, p)).2, es⟩ := by
  cases segs with
  | nil => rfl
  | cons q qs =>
    have e : ansiSegs (q :: qs) = str "\x1b[" ++ (q ++ ansiRest qs) ++ str "m" := by
      simp [ansiSegs]
    rw [e, feed_sgr kind p es _ (isParams_segs q qs h), Vt.sgr, splitAt_segs q qs h]
    have key : ∀ (l : List Str) (s : Pending × Pen), (∀ q ∈ l, IsParam q) →
        l.foldl (fun s item => param kind.boldFaint s ((splitAt ':' item).map paramVal)) s =
          l.foldl (seg kind.boldFaint) s := by
      intro l
      induction l with
      | nil => intro s _; rfl
      | cons q l ih =>
        intro s hl
        rw [List.foldl_cons, List.foldl_cons, ih _ (fun r hr => hl r (by simp [hr])),
          splitAt_param q (hl q (by simp)) ':' (by decide)]
        rfl
    rw [key _ _ h]

theorem seg_foreground (kind : TermKind) (c : Color) (p : Pen) :
    seg kind (.none, p) (str (AnsiUtil.foreground c)) = (.none, { p with fg := ink c }) := by
  cases c <;> rfl

theorem seg_background (kind : TermKind) (c : Color) (p : Pen) :
    seg kind (.none, p) (str (AnsiUtil.background c)) = (.none, { p with bg := ink c }) := by
  cases c <;> rfl

/-- The pen for two inks and two flags. -/
def mkPen (fg bg : Ink) (bold faint : Bool) : Pen := { Pen.plain with fg := fg, bg := bg, bold := bold, faint := faint }

theorem seg_intensity (kind : TermKind) (i j : Intensity) (fg bg : Ink)
    (h : kind = .exclusive ∨ ¬ ((j = .Bold ∧ i = .Faint) ∨ (j = .Faint ∧ i = .Bold))) :
    seg kind (.none, mkPen fg bg (j = .Bold) (j = .Faint)) (str (AnsiUtil.intensity i)) =
      (.none, mkPen fg bg (i = .Bold) (i = .Faint)) := by
  cases kind <;> cases i <;> cases j <;> first | rfl | simp at h

theorem sgr_zero (kind : TermKind) (p : Pen) : Vt.sgr kind ['0'] p = Pen.plain := rfl

theorem setFg (fg bg fg' : Ink) (bold faint : Bool) :
    { mkPen fg bg bold faint with fg := fg' } = mkPen fg' bg bold faint := rfl

theorem setBg (fg bg bg' : Ink) (bold faint : Bool) :
    { mkPen fg bg bold faint with bg := bg' } = mkPen fg bg' bold faint := rfl

theorem ofStyle_mk (st : Style) : Pen.ofStyle st =
    mkPen (ink st.foreground) (ink st.background) (st.intensity = .Bold) (st.intensity = .Faint) := rfl

theorem feed_switch (kind : Kind) (cur st : Style) (es : List Event)
    (h : kind.boldFaint = .exclusive ∨ ¬ BoldFaint cur st) :
    Screen.feed kind ⟨.ground, Pen.ofStyle cur, es⟩ (ansiSwitch cur st) = ⟨.ground, Pen.ofStyle st, es⟩ := by
  unfold ansiSwitch
  split
  · rename_i hc
    have e : Ansi.resetSeq = str "\x1b[" ++ ['0'] ++ str "m" := by decide
    rw [e, feed_sgr kind _ es _ (by simp [IsParams, Char.isDigit]), sgr_zero, hc.2]
    rfl
  · rw [feed_segs kind _ es _ (isParam_segments _)]
    congr 1
    obtain ⟨cf, cb, ci⟩ := cur
    obtain ⟨sf, sb, si⟩ := st
    have hi := seg_intensity kind.boldFaint si ci
    simp only [BoldFaint] at h
    have hi' := fun fg bg => hi fg bg h
    simp only [Ansi.segments, Style.diffFrom, diffField, ofStyle_mk]
    by_cases h1 : cf = sf <;> by_cases h2 : cb = sb <;> by_cases h3 : ci = si <;>
      simp [h1, h2, h3, seg_foreground, seg_background, setFg, setBg, hi']

theorem step_text (kind : Kind) (p : Pen) (es : List Event) (c : Char) (st : Style) (hp : isControl c ∨ p = .ofStyle st)
    (h : c ∉ acts kind) :
    Screen.feed kind ⟨.ground, p, es⟩ [c] = ⟨.ground, p, es ++ [expected (c, st)]⟩ := by
  have h1 : c ≠ '\x1b' := by
    rintro rfl
    unfold acts at h
    split at h <;> exact h (by decide)
  simp only [Screen.feed, List.foldl_cons, List.foldl_nil, Screen.step, if_neg h1, expected]
  by_cases hc : c = '\x18' ∨ c = '\x1a'
  · rw [if_pos hc, if_pos (by rcases hc with rfl | rfl <;> decide)]
    rfl
  · rw [if_neg hc]
    split
    · rename_i hc1
      rw [acts, if_pos hc1.1] at h
      simp only [introducers, List.mem_cons, List.not_mem_nil, or_false, not_or] at h
      obtain ⟨-, h2, h3, h4, h5, h6, h7, h8⟩ := h
      have hctl : isControl c = true := by simp [isControl]; omega
      simp [Screen.c1Char, h2, h3, h4, h5, h6, h7, h8, Screen.report, hctl]
    · rcases hp with hp | rfl
      · simp [hp, Screen.report]
      · split <;> rfl

theorem step_text_any (kind : Kind) (p : Pen) (es : List Event) (c : Char) (h : c ∉ acts kind) :
    Screen.feed kind ⟨.ground, p, es⟩ [c] =
      ⟨.ground, p, es ++ [if isControl c then .execute c else .print c p]⟩ := by
  by_cases hc : isControl c = true
  · rw [step_text kind p es c Style.default (.inl hc) h]
    simp [expected, hc]
  · have h1 : c ≠ '\x1b' := by rintro rfl; exact hc (by decide)
    have hn : ¬ (0x80 ≤ c.toNat ∧ c.toNat < 0xA0) := by
      simp [isControl] at hc
      omega
    have n2 : c ≠ '\x18' := by rintro rfl; exact hc (by decide)
    have n3 : c ≠ '\x1a' := by rintro rfl; exact hc (by decide)
    simp [Screen.feed, Screen.step, h1, n2, n3, hn, hc, Screen.report]

theorem feed_render (kind : Kind) (cur : Style) (t : Styled) (es : List Event)
    (hin : ∀ x ∈ t, x.1 ∉ acts kind) (h : kind.boldFaint = .exclusive ∨ NoBoldFaintFrom cur t) :
    Screen.feed kind ⟨.ground, Pen.ofStyle cur, es⟩ (renderWith ansiSwitch plainEnc cur t) =
      ⟨.ground, Pen.ofStyle (lastStyle cur t), es ++ t.map expected⟩ := by
  induction t generalizing cur es with
  | nil => simp [renderWith, Screen.feed, lastStyle]
  | cons x t ih =>
    obtain ⟨c, st⟩ := x
    have h1 : kind.boldFaint = .exclusive ∨ ¬ BoldFaint cur st := h.imp id And.left
    have h2 : kind.boldFaint = .exclusive ∨ NoBoldFaintFrom st t := h.imp id And.right
    rw [renderWith, feed_append, feed_append, feed_switch kind cur st es h1, plainEnc,
      step_text kind _ _ c st (.inr rfl) (hin (c, st) (by simp)), ih st _ (fun y hy => hin y (by simp [hy])) h2]
    simp [lastStyle]

/-- Whatever bold/faint mix-ups happened, the parser is in ground state and the default style is right. -/
theorem feed_switch_ground (kind : Kind) (cur st : Style) (p : Pen) (es : List Event)
    (h : cur = Style.default → p = Pen.plain) :
    ∃ p', Screen.feed kind ⟨.ground, p, es⟩ (ansiSwitch cur st) = ⟨.ground, p', es⟩ ∧
      (st = Style.default → p' = Pen.plain) := by
  unfold ansiSwitch
  split
  · have e : Ansi.resetSeq = str "\x1b[" ++ ['0'] ++ str "m" := by decide
    rw [e, feed_sgr kind _ es _ (by simp [IsParams, Char.isDigit]), sgr_zero]
    exact ⟨_, rfl, fun _ => rfl⟩
  · rename_i hn
    rw [feed_segs kind _ es _ (isParam_segments _)]
    refine ⟨_, rfl, fun hst => ?_⟩
    have hc : cur = st := by
      apply Classical.byContradiction
      intro hc
      exact hn ⟨hc, hst⟩
    subst hc
    simp [diffFrom_self, Ansi.segments, h hst]

theorem feed_render_ground (kind : Kind) (cur : Style) (t : Styled) (p : Pen) (es : List Event)
    (hin : ∀ x ∈ t, x.1 ∉ acts kind) (h : cur = Style.default → p = Pen.plain) :
    ∃ p' es', Screen.feed kind ⟨.ground, p, es⟩ (renderWith ansiSwitch plainEnc cur t) = ⟨.ground, p', es'⟩ ∧
      chars es' = chars es ++ text t ∧ (lastStyle cur t = Style.default → p' = Pen.plain) := by
  induction t generalizing cur p es with
  | nil => exact ⟨p, es, by simp [renderWith, Screen.feed], by simp [text], h⟩
  | cons x t ih =>
    obtain ⟨c, st⟩ := x
    obtain ⟨p1, h1, h2⟩ := feed_switch_ground kind cur st p es h
    rw [renderWith, feed_append, feed_append, h1, plainEnc, step_text_any kind _ _ c (hin (c, st) (by simp))]
    obtain ⟨p', es', e1, e2, e3⟩ := ih st p1 (es ++ [if isControl c then .execute c else .print c p1])
      (fun y hy => hin y (by simp [hy])) h2
    refine ⟨p', es', e1, ?_, e3⟩
    rw [e2]
    split <;> simp [chars, text]

/-! ### The other direction -/

/-- A terminal never acts on an introducer as a control character of its own. -/
theorem feed_no_introducer (kind : Kind) (t : Str) (s : Screen) (h : ∀ c ∈ acts kind, Event.execute c ∉ s.events) :
    ∀ c ∈ acts kind, Event.execute c ∉ (s.feed kind t).events := by
  induction t generalizing s with
  | nil => exact h
  | cons d t ih =>
    refine ih (s.step kind d) ?_
    have hr : ∀ e n, (∀ c ∈ acts kind, e ≠ .execute c) → ∀ c ∈ acts kind, Event.execute c ∉ (s.report e n).events := by
      intro e n he c hc hm
      rcases List.mem_append.1 hm with hm | hm
      · exact h c hc hm
      · exact he c hc (List.mem_singleton.1 hm).symm
    have he : d ∉ acts kind → ∀ n, ∀ c ∈ acts kind, Event.execute c ∉ (s.report (.execute d) n).events := by
      intro hd n
      refine hr _ n fun c hc e => hd ?_
      cases e
      exact hc
    by_cases hd : d ∈ acts kind
    · by_cases hk : kind.c1 = true
      · rw [acts, if_pos hk] at hd
        simp only [introducers, List.mem_cons, List.not_mem_nil, or_false] at hd
        rcases hd with rfl | rfl | rfl | rfl | rfl | rfl | rfl | rfl <;>
          simpa [Screen.step, hk, Screen.goto, Screen.c1Char] using h
      · rw [acts, if_neg hk] at hd
        obtain rfl := List.mem_singleton.1 hd
        simpa [Screen.step, Screen.goto] using h
    · unfold Screen.step Screen.c1Char Screen.csiChar Screen.csiFinal Screen.escFinal
      repeat' split
      all_goals first
        | exact he hd _
        | exact hr _ _ (fun _ _ e => nomatch e)
        | exact h

/-! ### Terminals on which bold and faint are two flags -/

/-- The two flags after a change of intensity. -/
def flagsAfter (fl : Bool × Bool) : Intensity → Bool × Bool
  | .Normal => (false, false)
  | .Bold => (true, fl.2)
  | .Faint => (fl.1, true)

/-- The flags are possible for the style. -/
def FlagsFor (cur : Style) (fl : Bool × Bool) : Prop := flagsAfter fl cur.intensity = fl

theorem flagsFor_after (fl : Bool × Bool) (st : Style) : FlagsFor st (flagsAfter fl st.intensity) := by
  unfold FlagsFor
  cases st.intensity <;> rfl

/-- The pen for a style and flags. -/
def flagPen (st : Style) (fl : Bool × Bool) : Pen := mkPen (ink st.foreground) (ink st.background) fl.1 fl.2

theorem seg_flags (i : Intensity) (fl : Bool × Bool) (fg bg : Ink) :
    seg .independent (.none, mkPen fg bg fl.1 fl.2) (str (AnsiUtil.intensity i)) =
      (.none, mkPen fg bg (flagsAfter fl i).1 (flagsAfter fl i).2) := by
  cases i <;> rfl

theorem feed_switch_flags (kind : Kind) (hk : kind.boldFaint = .independent) (cur st : Style) (fl : Bool × Bool)
    (hf : FlagsFor cur fl) (es : List Event) :
    Screen.feed kind ⟨.ground, flagPen cur fl, es⟩ (ansiSwitch cur st) =
      ⟨.ground, flagPen st (flagsAfter fl st.intensity), es⟩ := by
  unfold ansiSwitch
  split
  · rename_i hc
    have e : Ansi.resetSeq = str "\x1b[" ++ ['0'] ++ str "m" := by decide
    rw [e, feed_sgr kind _ es _ (by simp [IsParams, Char.isDigit]), sgr_zero, hc.2]
    rfl
  · rw [feed_segs kind _ es _ (isParam_segments _), hk]
    congr 1
    obtain ⟨cf, cb, ci⟩ := cur
    obtain ⟨sf, sb, si⟩ := st
    have hi := seg_flags si fl
    simp only [Ansi.segments, Style.diffFrom, diffField, flagPen]
    by_cases h3 : ci = si
    · subst h3
      have hf : flagsAfter fl ci = fl := hf
      by_cases h1 : cf = sf <;> by_cases h2 : cb = sb <;>
        simp [h1, h2, hf, seg_foreground, seg_background, setFg, setBg]
    · by_cases h1 : cf = sf <;> by_cases h2 : cb = sb <;>
        simp [h1, h2, h3, seg_foreground, seg_background, setFg, setBg, hi]

/-- What is seen, starting with the given flags. -/
def seen (fl : Bool × Bool) : Styled → List Event
  | [] => []
  | (c, st) :: t =>
    (if isControl c then .execute c else .print c (flagPen st (flagsAfter fl st.intensity))) ::
      seen (flagsAfter fl st.intensity) t

theorem feed_render_flags (kind : Kind) (hk : kind.boldFaint = .independent) (cur : Style) (t : Styled)
    (es : List Event) (fl : Bool × Bool) (hf : FlagsFor cur fl) (hin : ∀ x ∈ t, x.1 ∉ acts kind) :
    (Screen.feed kind ⟨.ground, flagPen cur fl, es⟩ (renderWith ansiSwitch plainEnc cur t)).events =
      es ++ seen fl t := by
  induction t generalizing cur es fl with
  | nil => simp [renderWith, Screen.feed, seen]
  | cons x t ih =>
    obtain ⟨c, st⟩ := x
    rw [renderWith, feed_append, feed_append, feed_switch_flags kind hk cur st fl hf es, plainEnc,
      step_text_any kind _ _ c (hin (c, st) (by simp)),
      ih st _ _ (flagsFor_after fl st) (fun y hy => hin y (by simp [hy]))]
    simp [seen]

/-- The flags for a run of characters. -/
def runFlags (run : Styled) : Bool × Bool :=
  (run.any fun x => x.2.intensity = .Bold, run.any fun x => x.2.intensity = .Faint)

theorem sinceNormal_snoc (pre : Styled) (x : Char × Style) :
    sinceNormal (pre ++ [x]) = if x.2.intensity = .Normal then [] else x :: sinceNormal pre := by
  unfold sinceNormal
  rw [List.reverse_append, List.reverse_singleton, List.singleton_append, List.takeWhile_cons]
  by_cases h : x.2.intensity = .Normal <;> simp [h]

theorem runFlags_snoc (pre : Styled) (x : Char × Style) :
    runFlags (sinceNormal (pre ++ [x])) = flagsAfter (runFlags (sinceNormal pre)) x.2.intensity := by
  rw [sinceNormal_snoc]
  obtain ⟨c, f, b, i⟩ := x
  cases i <;> simp [runFlags, flagsAfter]

theorem mem_sinceNormal {t : Styled} {x : Char × Style} (h : x ∈ sinceNormal t) : x.2.intensity ≠ .Normal := by
  have : ∀ l : Styled, x ∈ l.takeWhile (fun x => x.2.intensity ≠ .Normal) → x.2.intensity ≠ .Normal := by
    intro l
    induction l with
    | nil => intro h; simp at h
    | cons y l ih =>
      intro h
      rw [List.takeWhile_cons] at h
      split at h
      · rename_i hy
        rcases List.mem_cons.1 h with rfl | h
        · simpa using hy
        · exact ih h
      · simp at h
  exact this _ h

/-- The pen is right for a character exactly if the run before it has its intensity. -/
theorem flags_right (pre : Styled) (st : Style) :
    flagPen st (flagsAfter (runFlags (sinceNormal pre)) st.intensity) = Pen.ofStyle st ↔
      (st.intensity = .Normal ∨ ∀ x ∈ sinceNormal pre, x.2.intensity = st.intensity) := by
  have hmem := fun x (h : x ∈ sinceNormal pre) => mem_sinceNormal h
  generalize sinceNormal pre = run at hmem
  obtain ⟨f, b, i⟩ := st
  rw [ofStyle_mk]
  simp only [flagPen, mkPen, Pen.mk.injEq, true_and, and_true]
  cases i
  case Normal => simp [flagsAfter]
  case Bold =>
    simp [flagsAfter, runFlags]
    refine forall_congr' fun c => forall_congr' fun s => forall_congr' fun hm => ?_
    have := hmem _ hm
    cases h : s.intensity <;> simp_all
  case Faint =>
    simp [flagsAfter, runFlags]
    refine forall_congr' fun c => forall_congr' fun s => forall_congr' fun hm => ?_
    have := hmem _ hm
    cases h : s.intensity <;> simp_all

theorem seen_iff (t : Styled) : ∀ before : Styled,
    seen (runFlags (sinceNormal before)) t = t.map expected ↔
      ∀ pre c st post, t = pre ++ (c, st) :: post → isControl c = false → st.intensity ≠ .Normal →
        ∀ x ∈ sinceNormal (before ++ pre), x.2.intensity = st.intensity := by
  induction t with
  | nil =>
    intro before
    refine ⟨fun _ pre c st post h => ?_, fun _ => rfl⟩
    simp at h
  | cons y t ih =>
    intro before
    obtain ⟨d, sd⟩ := y
    have h1 := flags_right before sd
    have h2 := ih (before ++ [(d, sd)])
    rw [runFlags_snoc] at h2
    rw [seen, List.map_cons, List.cons.injEq, h2]
    constructor
    · rintro ⟨ha, hb⟩ pre c st post e hc hst
      cases pre with
      | nil =>
        simp only [List.nil_append, List.cons.injEq, Prod.mk.injEq] at e
        obtain ⟨⟨rfl, rfl⟩, -⟩ := e
        rw [expected] at ha
        simp only [hc, Bool.false_eq_true, if_false, Event.print.injEq, true_and] at ha
        rw [List.append_nil]
        exact (h1.1 ha).resolve_left hst
      | cons z pre =>
        simp only [List.cons_append, List.cons.injEq] at e
        obtain ⟨rfl, e⟩ := e
        have := hb pre c st post e hc hst
        simpa using this
    · intro h
      constructor
      · rw [expected]
        by_cases hc : isControl d = true
        · simp [hc]
        · simp only [hc, Bool.false_eq_true, if_false, Event.print.injEq, true_and]
          refine h1.2 ?_
          by_cases hn : sd.intensity = .Normal
          · exact .inl hn
          · refine .inr ?_
            have := h [] d sd t rfl (by simpa using hc) hn
            rwa [List.append_nil] at this
      · intro pre c st post e hc hst
        have := h ((d, sd) :: pre) c st post (by rw [e]; rfl) hc hst
        simpa using this

end Vt

end Stylish
