import Verif.Spec.Pick
import Verif.Props.Compose
import Verif.Props.Tail
/-
C109: lines picked out of an output.
-/

namespace Stylish.Props

open Spec

variable {T : Type} [FmtWrite T] {names : Browser.Names}

/-! ## C109 -/

namespace Pick

theorem linesOf_cons {α : Type} (nl : α → Bool) (c : α) (cs : List α) (h : nl c = false) : linesOf nl (c :: cs) =
    match linesOf nl cs with
      | [] => [[c]]
      | l :: ls => (c :: l) :: ls := by
  rw [linesOf.eq_def]
  simp only [h, Bool.false_eq_true, if_false]
  cases linesOf nl cs <;> rfl

theorem linesOf_prefix {α : Type} (nl : α → Bool) (p r : List α) (hp : p ≠ []) (h : ∀ c ∈ p, nl c = false) :
    linesOf nl (p ++ r) =
    match linesOf nl r with
      | [] => [p]
      | l :: ls => (p ++ l) :: ls := by
  induction p with
  | nil => exact absurd rfl hp
  | cons c p ih =>
    rw [List.cons_append, linesOf_cons nl c _ (h c (by simp))]
    cases p with
    | nil => rw [List.nil_append]; cases linesOf nl r <;> rfl
    | cons d p =>
      rw [ih (by simp) (fun c hc => h c (by simp [hc]))]
      cases linesOf nl r <;> rfl

theorem linesOf_nil {α : Type} (nl : α → Bool) (t : List α) (h : linesOf nl t = []) : t = [] := by
  cases t with
  | nil => rfl
  | cons c t =>
    rw [linesOf.eq_def] at h
    simp only at h
    split at h
    · simp at h
    · split at h <;> simp at h

theorem linesOf_mem {α : Type} (nl : α → Bool) (t : List α) : ∀ l ∈ linesOf nl t, ∃ a b, t = a ++ l ++ b := by
  induction t with
  | nil => intro l h; simp [linesOf] at h
  | cons c t ih =>
    intro l h
    rw [linesOf.eq_def] at h
    simp only at h
    split at h
    · rcases List.mem_cons.1 h with rfl | h
      · exact ⟨[], t, rfl⟩
      · obtain ⟨a, b, rfl⟩ := ih l h
        exact ⟨c :: a, b, by simp⟩
    · split at h
      · rename_i e
        obtain rfl := linesOf_nil nl t e
        simp only [List.mem_singleton] at h
        subst h
        exact ⟨[], [], rfl⟩
      · rename_i l' ls e
        rw [e] at ih
        rcases List.mem_cons.1 h with rfl | h
        · clear ih
          have first : ∀ (t l' : List α) (ls : List (List α)), linesOf nl t = l' :: ls → ∃ b, t = l' ++ b := by
            intro t
            induction t with
            | nil => intro l' ls h; simp [linesOf] at h
            | cons d t ih =>
              intro l' ls h
              rw [linesOf.eq_def] at h
              simp only at h
              split at h
              · obtain ⟨rfl, -⟩ := List.cons.inj h; exact ⟨t, rfl⟩
              · split at h
                · rename_i e
                  obtain rfl := linesOf_nil nl t e
                  obtain ⟨rfl, -⟩ := List.cons.inj h
                  exact ⟨[], rfl⟩
                · rename_i e
                  obtain ⟨rfl, -⟩ := List.cons.inj h
                  obtain ⟨b, rfl⟩ := ih _ _ e
                  exact ⟨b, rfl⟩
          obtain ⟨b, rfl⟩ := first t l' ls e
          exact ⟨[], b, rfl⟩
        · obtain ⟨a, b, rfl⟩ := ih l (by simp [h])
          exact ⟨c :: a, b, by simp⟩

theorem textLines_cons (c : Char) (st : Style) (t : Styled) (hc : c ≠ '\n') : textLines ((c, st) :: t) =
    match textLines t with
      | [] => [[(c, st)]]
      | l :: ls => ((c, st) :: l) :: ls := by
  have h := linesOf_cons (fun x : Char × Style => decide (x.1 = '\n')) (c, st) t (decide_eq_false hc)
  refine Eq.trans h ?_
  show _ = match linesOf (fun x : Char × Style => decide (x.1 = '\n')) t with | [] => _ | l :: ls => _
  cases linesOf (fun x : Char × Style => decide (x.1 = '\n')) t <;> rfl

/-- A rendering with its end. -/
def rend (sw : Style → Style → Str) (enc : Char → Str) (cur : Style) (t : Styled) : Str :=
  renderWith sw enc cur t ++ sw (lastStyle cur t) Style.default

theorem rend_cons (sw : Style → Style → Str) (enc : Char → Str) (cur : Style) (c : Char) (st : Style) (t : Styled) :
    rend sw enc cur ((c, st) :: t) = (sw cur st ++ enc c) ++ rend sw enc st t := by
  simp [rend, renderWith, lastStyle]

/-- If no line feed is in a style, every line is rendered on its own. -/
theorem lines_rend (sw : Style → Style → Str) (enc : Char → Str) (hsw : ∀ a b, '\n' ∉ sw a b)
    (hself : ∀ a, sw a a = []) (hnl : enc '\n' = ['\n']) (henc : ∀ c, c ≠ '\n' → '\n' ∉ enc c) (hne : ∀ c, enc c ≠ [])
    (t : Styled) : ∀ cur, (∀ x ∈ t, x.1 = '\n' → x.2 = Style.default) →
    outLines (rend sw enc cur t) =
      match textLines t with
      | [] => if sw cur Style.default = [] then [] else [sw cur Style.default]
      | l :: ls => rend sw enc cur l :: ls.map (rend sw enc Style.default) := by
  have noNl : ∀ p : Str, '\n' ∉ p → ∀ c ∈ p, decide (c = '\n') = false := by
    intro p hp c hc
    simp only [decide_eq_false_iff_not]
    rintro rfl
    exact hp hc
  induction t with
  | nil =>
    intro cur _
    show linesOf _ (sw cur Style.default) = if _ then _ else _
    split
    · rename_i h; rw [h]; rfl
    · rename_i h
      have := linesOf_prefix (· = '\n') (sw cur Style.default) [] h (noNl _ (hsw _ _))
      rw [List.append_nil] at this
      rw [this]
      rfl
  | cons x t ih =>
    obtain ⟨c, st⟩ := x
    intro cur hx
    have ih := ih st (fun x h => hx x (by simp [h]))
    rw [rend_cons]
    by_cases hc : c = '\n'
    · subst hc
      obtain rfl : st = Style.default := hx ('\n', st) (by simp) rfl
      have e : textLines (('\n', Style.default) :: t) = [('\n', Style.default)] :: textLines t := rfl
      have e1 : rend sw enc cur [('\n', Style.default)] = sw cur Style.default ++ ['\n'] := by
        rw [rend_cons, hnl]
        simp [rend, renderWith, lastStyle, hself]
      rw [e, hnl]
      simp only [e1]
      have ih' : linesOf (· = '\n') (rend sw enc Style.default t) = (textLines t).map (rend sw enc Style.default) := by
        rw [show linesOf (· = '\n') (rend sw enc Style.default t) = outLines (rend sw enc Style.default t) from rfl, ih]
        cases textLines t with
        | nil => simp [hself]
        | cons l ls => rfl
      have e2 : ∀ r, linesOf (· = '\n') ('\n' :: r) = ['\n'] :: linesOf (· = '\n') r := fun _ => rfl
      show linesOf _ _ = _
      rw [List.append_assoc, List.singleton_append]
      by_cases hs : sw cur Style.default = []
      · rw [hs, List.nil_append, e2, ih', List.nil_append]
      · rw [linesOf_prefix _ _ _ hs (noNl _ (hsw _ _)), e2, ih']
    · have hp : ∀ d ∈ sw cur st ++ enc c, decide (d = '\n') = false := by
        refine noNl _ fun h => ?_
        rcases List.mem_append.1 h with h | h
        · exact hsw _ _ h
        · exact henc c hc h
      show linesOf _ _ = _
      rw [linesOf_prefix _ _ _ (by simp [hne c]) hp,
        show linesOf (· = '\n') (rend sw enc st t) = outLines (rend sw enc st t) from rfl, ih,
        textLines_cons c st t hc]
      cases ht : textLines t with
      | nil =>
        by_cases hs : sw st Style.default = []
        · simp [hs, rend, renderWith, lastStyle]
        · simp [hs, rend, renderWith, lastStyle]
      | cons l ls => simp [rend_cons]

theorem lines_map (sw : Style → Style → Str) (enc : Char → Str) (hsw : ∀ a b, '\n' ∉ sw a b)
    (hself : ∀ a, sw a a = []) (hnl : enc '\n' = ['\n']) (henc : ∀ c, c ≠ '\n' → '\n' ∉ enc c) (hne : ∀ c, enc c ≠ [])
    (t : Styled) (hx : ∀ x ∈ t, x.1 = '\n' → x.2 = Style.default) :
    outLines (rend sw enc Style.default t) = (textLines t).map (rend sw enc Style.default) := by
  rw [lines_rend sw enc hsw hself hnl henc hne t _ hx]
  cases textLines t with
  | nil => simp [hself]
  | cons l ls => rfl

theorem ansi_lines (t : Styled) (hx : ∀ x ∈ t, x.1 = '\n' → x.2 = Style.default) :
    outLines (ansiRender t) = (textLines t).map ansiRender := by
  refine lines_map ansiSwitch plainEnc (fun a b h => ?_) ansiSwitch_self rfl (fun c hc h => ?_) (fun c => by simp [plainEnc]) t hx
  · exact absurd (ansiSwitch_marks a b _ h) (by decide)
  · simp only [plainEnc, List.mem_singleton] at h
    exact hc h.symm

theorem html_lines (t : Styled) (hx : ∀ x ∈ t, x.1 = '\n' → x.2 = Style.default) :
    outLines (htmlRender t) = (textLines t).map htmlRender := by
  refine lines_map htmlSwitch htmlEnc (fun a b h => ?_) htmlSwitch_self (by decide) (fun c hc h => htmlEnc_nl c hc h)
    enc_ne_nil t hx
  exact absurd (htmlSwitch_printable a b _ h) (by decide)

/-- A styled text as chunks. -/
def chunks (t : Styled) : List Chunk := t.map fun x => ([x.1], x.2)

theorem flatten_chunks (t : Styled) : flatten (chunks t) = t := by
  induction t with
  | nil => rfl
  | cons x t ih =>
    have e : flatten (chunks (x :: t)) = x :: flatten (chunks t) := rfl
    rw [e, ih]

theorem pick_map {α β : Type} (f : List α → List β) (hf : f [] = []) (numbers : List Nat) (ls : List (List α)) :
    pick numbers (ls.map f) = (numbers.map fun i => ls.getD i []).flatMap f := by
  induction numbers with
  | nil => rfl
  | cons i numbers ih =>
    have e : ∀ m : List (List β), pick (i :: numbers) m = m.getD i [] ++ pick numbers m := fun _ => rfl
    rw [e, ih, List.map_cons, List.flatMap_cons]
    congr 1
    simp only [List.getD_eq_getElem?_getD, List.getElem?_map]
    cases ls[i]? with
    | none => exact hf.symm
    | some l => rfl

theorem pick_mem {α : Type} (numbers : List Nat) (ls : List (List α)) :
    ∀ l ∈ numbers.map (fun i => ls.getD i []), l = [] ∨ l ∈ ls := by
  intro l hl
  obtain ⟨i, -, rfl⟩ := List.mem_map.1 hl
  rw [List.getD_eq_getElem?_getD]
  cases h : ls[i]? with
  | none => exact .inl rfl
  | some l => exact .inr (List.mem_of_getElem? h)

end Pick

/-- C109: if no line feed is in a style, then every line of the output is what a writer of its own would have written of that
line. -/
theorem C109_ansi (k : FmtSink T) (t : T) (chs : List Chunk) (out : Str) (h : AnsiFinished k t chs out)
    (hnl : ∀ x ∈ flatten chs, x.1 = '\n' → x.2 = Style.default) :
    (outLines out).length = (textLines (flatten chs)).length ∧
    ∀ (i : Nat) (l : Styled) (o : Str), (textLines (flatten chs))[i]? = some l → (outLines out)[i]? = some o →
      ∀ own, flatten own = l → AnsiFinished stringSink StdString.new own o := by
  rw [ansiFinished_eq k t chs out h, Pick.ansi_lines _ hnl]
  refine ⟨List.length_map _, ?_⟩
  rintro i l o hl ho own rfl
  rw [List.getElem?_map, hl] at ho
  obtain rfl := Option.some.inj ho
  exact (ansiFinished_exists stringSink stringSink_accepting StdString.new own).2

/-- C109 for HTML. -/
theorem C109_html (k : FmtSink T) (t : T) (chs : List Chunk) (out : Str) (h : HtmlFinished k t chs out)
    (hnl : ∀ x ∈ flatten chs, x.1 = '\n' → x.2 = Style.default) :
    (outLines out).length = (textLines (flatten chs)).length ∧
    ∀ (i : Nat) (l : Styled) (o : Str), (textLines (flatten chs))[i]? = some l → (outLines out)[i]? = some o →
      ∀ own, flatten own = l → HtmlFinished stringSink StdString.new own o := by
  rw [htmlFinished_eq k t chs out h, Pick.html_lines _ hnl]
  refine ⟨List.length_map _, ?_⟩
  rintro i l o hl ho own rfl
  rw [List.getElem?_map, hl] at ho
  obtain rfl := Option.some.inj ho
  exact (htmlFinished_exists stringSink stringSink_accepting StdString.new own).2

/-! ### What is seen of them -/

namespace Pick

open Vt

/-- A screen with more events before. -/
def after (es : List Event) (s : Screen) : Screen := { s with events := es ++ s.events }

theorem report_after (es : List Event) (s : Screen) (e : Event) (n : State) :
    Screen.report (after es s) e n = after es (Screen.report s e n) := by simp [Screen.report, after]

theorem goto_after (es : List Event) (s : Screen) (n : State) :
    Screen.goto (after es s) n = after es (Screen.goto s n) := rfl

theorem ite_after (es : List Event) (c : Prop) [Decidable c] (s s' : Screen) :
    (if c then after es s else after es s') = after es (if c then s else s') := by split <;> rfl

theorem escFinal_after (es : List Event) (s : Screen) (i : Str) (c : Char) :
    Screen.escFinal (after es s) i c = after es (Screen.escFinal s i c) := by
  simp only [Screen.escFinal, report_after, goto_after, ite_after]

theorem c1Char_after (es : List Event) (s : Screen) (c : Char) :
    Screen.c1Char (after es s) c = after es (Screen.c1Char s c) := by
  simp only [Screen.c1Char, report_after, goto_after, ite_after]

theorem csiFinal_after (kind : Kind) (es : List Event) (s : Screen) (m p i : Str) (c : Char) :
    Screen.csiFinal kind (after es s) m p i c = after es (Screen.csiFinal kind s m p i c) := by
  simp only [Screen.csiFinal, report_after]
  split <;> rfl

theorem csiChar_after (kind : Kind) (es : List Event) (s : Screen) (m p i : Str) (c : Char) :
    Screen.csiChar kind (after es s) m p i c = after es (Screen.csiChar kind s m p i c) := by
  simp only [Screen.csiChar, csiFinal_after, goto_after, ite_after]

theorem step_after (kind : Kind) (es : List Event) (s : Screen) (c : Char) :
    Screen.step kind (after es s) c = after es (Screen.step kind s c) := by
  obtain ⟨st, p, ev⟩ := s
  have e1 : (after es ⟨st, p, ev⟩).state = st := rfl
  have e2 : (after es ⟨st, p, ev⟩).pen = p := rfl
  cases st <;> simp only [Screen.step, e1, e2, report_after, goto_after, c1Char_after, escFinal_after, csiChar_after, ite_after]

theorem feed_more (kind : Kind) (s : Str) : ∀ (st : State) (p : Pen) (es : List Event),
    Screen.feed kind ⟨st, p, es⟩ s = ⟨(Screen.feed kind ⟨st, p, []⟩ s).state, (Screen.feed kind ⟨st, p, []⟩ s).pen,
      es ++ (Screen.feed kind ⟨st, p, []⟩ s).events⟩ := by
  have one : ∀ (c : Char) (st : State) (p : Pen) (es : List Event), Screen.step kind ⟨st, p, es⟩ c =
      ⟨(Screen.step kind ⟨st, p, []⟩ c).state, (Screen.step kind ⟨st, p, []⟩ c).pen,
        es ++ (Screen.step kind ⟨st, p, []⟩ c).events⟩ := by
    intro c st p es
    obtain ⟨q, hq⟩ : ∃ q : Screen, q = ⟨st, p, []⟩ := ⟨_, rfl⟩
    have hq' : (⟨st, p, es⟩ : Screen) = after es q := by subst hq; simp [after]
    rw [hq', ← hq, step_after]
    rfl
  induction s with
  | nil => intro st p es; simp [Screen.feed]
  | cons c s ih =>
    intro st p es
    have e : ∀ es, Screen.feed kind ⟨st, p, es⟩ (c :: s) = Screen.feed kind (Screen.step kind ⟨st, p, es⟩ c) s := fun _ => rfl
    rw [e, e, one c st p es]
    generalize Screen.step kind ⟨st, p, []⟩ c = r
    obtain ⟨st', p', es'⟩ := r
    rw [ih st' p' (es ++ es'), ih st' p' es']
    simp

theorem feed_line (kind : Kind) (l : Styled) (es : List Event) (hin : ∀ x ∈ l, x.1 ∉ acts kind)
    (hm : kind.boldFaint = .exclusive ∨ ¬ Muddled l) :
    Screen.feed kind ⟨.ground, Pen.plain, es⟩ (ansiRender l) = ⟨.ground, Pen.plain, es ++ l.map expected⟩ := by
  have h := (ansiFinished_exists stringSink stringSink_accepting StdString.new (chunks l)).2
  rw [flatten_chunks] at h
  have h1 := (C71_exact _ _ _ _ (.inr h) kind).2 (by rw [flatten_chunks]; exact ⟨hin, hm⟩)
  have h2 := (C71_resets _ _ _ _ kind (by rw [flatten_chunks]; exact hin)).1 h
  rw [flatten_chunks] at h1
  rw [feed_more]
  have e : Screen.fresh = ⟨.ground, Pen.plain, []⟩ := rfl
  rw [e] at h1 h2
  rw [h1, h2.1, h2.2.1]

theorem feed_lines (kind : Kind) (ls : List Styled) (hin : ∀ l ∈ ls, ∀ x ∈ l, x.1 ∉ acts kind)
    (hm : ∀ l ∈ ls, kind.boldFaint = .exclusive ∨ ¬ Muddled l) : ∀ es,
    Screen.feed kind ⟨.ground, Pen.plain, es⟩ (ls.flatMap ansiRender) =
      ⟨.ground, Pen.plain, es ++ (ls.flatMap id).map expected⟩ := by
  induction ls with
  | nil => intro es; simp [Screen.feed]
  | cons l ls ih =>
    intro es
    rw [List.flatMap_cons, Vt.feed_append, feed_line kind l es (hin l (by simp)) (hm l (by simp)),
      ih (fun l hl => hin l (by simp [hl])) (fun l hl => hm l (by simp [hl]))]
    simp

theorem muddled_part (a l b : Styled) (h : Muddled l) : Muddled (a ++ l ++ b) := by
  obtain ⟨pre, c, st, post, rfl, h1, h2, x, hx, h3⟩ := h
  refine ⟨a ++ pre, c, st, post ++ b, by simp, h1, h2, x, ?_, h3⟩
  unfold sinceNormal at hx ⊢
  rw [List.reverse_append]
  generalize pre.reverse = r at hx
  induction r with
  | nil => simp at hx
  | cons y r ih =>
    rw [List.takeWhile_cons] at hx
    rw [List.cons_append, List.takeWhile_cons]
    split at hx
    · rename_i hy
      rw [if_pos hy]
      rcases List.mem_cons.1 hx with rfl | hx
      · exact List.mem_cons_self ..
      · exact List.mem_cons_of_mem _ (ih hx)
    · simp at hx

end Pick

section
open Vt

/-- C109: so any lines, in any order, are seen on a terminal as in the whole (under the conditions of C71), and the terminal is
left as it was. -/
theorem C109_ansi_seen (k : FmtSink T) (t : T) (chs : List Chunk) (out : Str) (h : AnsiFinished k t chs out)
    (hnl : ∀ x ∈ flatten chs, x.1 = '\n' → x.2 = Style.default) (kind : Kind)
    (hin : ∀ x ∈ flatten chs, x.1 ∉ acts kind) (hm : kind.boldFaint = .exclusive ∨ ¬ Muddled (flatten chs))
    (numbers : List Nat) :
    Screen.fresh.feed kind (pick numbers (outLines out)) =
      ⟨.ground, Pen.plain, (pick numbers (textLines (flatten chs))).map expected⟩ := by
  have part : ∀ l ∈ numbers.map (fun i => (textLines (flatten chs)).getD i []), ∃ a b, flatten chs = a ++ l ++ b := by
    intro l hl
    rcases Pick.pick_mem _ _ l hl with rfl | hl
    · exact ⟨[], flatten chs, by simp⟩
    · exact Pick.linesOf_mem _ _ l hl
  rw [ansiFinished_eq k t chs out h, Pick.ansi_lines _ hnl, Pick.pick_map ansiRender rfl]
  have e : Screen.fresh = ⟨.ground, Pen.plain, []⟩ := rfl
  rw [e, Pick.feed_lines kind]
  · rw [List.nil_append]
    simp [pick, List.flatMap_map]
  · intro l hl x hx
    obtain ⟨a, b, e⟩ := part l hl
    exact hin x (by rw [e]; simp [hx])
  · intro l hl
    rcases hm with hm | hm
    · exact .inl hm
    · obtain ⟨a, b, e⟩ := part l hl
      exact .inr fun h => hm (by rw [e]; exact Pick.muddled_part a l b h)

end

/-- Lines, each rendered on its own, on a page. -/
theorem Pick.shows_lines (hn : names.Standard) (ls : List Styled) (hcr : ∀ l ∈ ls, ∀ x ∈ l, x.1 ≠ '\r' ∧ x.1 ≠ '\x00') :
    Browser.shows names (ls.flatMap htmlRender) = some (ls.flatMap id) := by
  have hread := C51_html stringSink (ls.map fun l => (StdString.new, Pick.chunks l, htmlRender l)) (by
    intro p hp
    obtain ⟨l, -, rfl⟩ := List.mem_map.1 hp
    have := (htmlFinished_exists stringSink stringSink_accepting StdString.new (Pick.chunks l)).2
    rw [Pick.flatten_chunks] at this
    exact this)
  simp only [List.flatMap_map, Pick.flatten_chunks] at hread
  have hr := C70_reader_sound names hn _ _ hread (by
    intro hm
    obtain ⟨l, hl, hm⟩ := List.mem_flatMap.1 hm
    have hno : ∀ (l : Styled) (cur : Style), (∀ x ∈ l, x.1 ≠ '\r') → '\r' ∉ renderWith htmlSwitch htmlEnc cur l := by
      intro l
      induction l with
      | nil => intro cur _ h; simp [renderWith] at h
      | cons x l ih =>
        obtain ⟨c, st⟩ := x
        intro cur hx h
        rw [renderWith] at h
        rcases List.mem_append.1 h with h | h
        · rcases List.mem_append.1 h with h | h
          · exact cr_switch _ _ h
          · exact cr_enc c (hx (c, st) (by simp)) h
        · exact ih _ (fun x h => hx x (by simp [h])) h
    rcases List.mem_append.1 hm with hm | hm
    · exact hno l _ (fun x hx => (hcr l hl x hx).1) hm
    · exact cr_switch _ _ hm)
  have e1 : ls.flatMap (fun l => htmlRender l) = ls.flatMap htmlRender := rfl
  rw [e1] at hr
  rw [hr]
  congr 1
  rw [Browser.noNul, List.filter_eq_self.2]
  · simp [List.flatMap_id']
  · intro x hx
    obtain ⟨l, hl, hx⟩ := List.mem_flatMap.1 hx
    simpa using (hcr l hl x hx).2

/-- C109: the same on a page. -/
theorem C109_html_seen (hn : names.Standard) (k : FmtSink T) (t : T) (chs : List Chunk) (out : Str)
    (h : HtmlFinished k t chs out) (hnl : ∀ x ∈ flatten chs, x.1 = '\n' → x.2 = Style.default)
    (hcr : ∀ x ∈ flatten chs, x.1 ≠ '\r' ∧ x.1 ≠ '\x00') (numbers : List Nat) :
    Browser.shows names (pick numbers (outLines out)) = some (pick numbers (textLines (flatten chs))) := by
  have part : ∀ l ∈ numbers.map (fun i => (textLines (flatten chs)).getD i []), ∀ x ∈ l, x ∈ flatten chs := by
    intro l hl x hx
    rcases Pick.pick_mem _ _ l hl with rfl | hl
    · simp at hx
    · obtain ⟨a, b, e⟩ := Pick.linesOf_mem _ _ l hl
      rw [e]; simp [hx]
  rw [htmlFinished_eq k t chs out h, Pick.html_lines _ hnl, Pick.pick_map htmlRender rfl]
  have e : pick numbers (textLines (flatten chs)) = (numbers.map fun i => (textLines (flatten chs)).getD i []).flatMap id := by
    simp [pick, List.flatMap_map]
  rw [e]
  exact Pick.shows_lines hn _ fun l hl x hx => hcr x (part l hl x hx)

/-! ### Samples -/

/-- Three lines, two of them in red up to the line feed. -/
def pickSample : List Chunk :=
  [(str "b", ⟨.Red, .Default, .Normal⟩), (str "\na\n", Style.default), (str "c", ⟨.Red, .Default, .Bold⟩)]

/-- Sorted, and the last line first. -/
example : (∀ x ∈ flatten pickSample, x.1 = '\n' → x.2 = Style.default) ∧
    AnsiFinished stringSink StdString.new pickSample (ansiRender (flatten pickSample)) ∧
    pick [1, 0] (outLines (ansiRender (flatten pickSample))) = str "a\n\x1b[31mb\x1b[0m\n" ∧
    pick [2, 0] (outLines (ansiRender (flatten pickSample))) = str "\x1b[31;1mc\x1b[0m\x1b[31mb\x1b[0m\n" ∧
    pick [2, 0] (outLines (htmlRender (flatten pickSample))) =
      str "<span style=color:red;font-weight:bolder>c</span><span style=color:red>b</span>\n" :=
  ⟨by decide, (ansiFinished_exists stringSink stringSink_accepting StdString.new pickSample).2, by decide +kernel,
    by decide +kernel, by decide +kernel⟩

/-- The sorted lines as they are seen. -/
example : Vt.Screen.fresh.feed ⟨.exclusive, true⟩ (pick [1, 0] (outLines (ansiRender (flatten pickSample)))) =
    ⟨.ground, Vt.Pen.plain, [.print 'a' Vt.Pen.plain, .execute '\n',
      .print 'b' { Vt.Pen.plain with fg := .indexed 1 }, .execute '\n']⟩ := by
  rw [C109_ansi_seen stringSink StdString.new pickSample _
    (ansiFinished_exists stringSink stringSink_accepting StdString.new pickSample).2 (by decide) ⟨.exclusive, true⟩ (by decide)
    (.inl rfl) [1, 0]]
  decide +kernel

example (hn : names.Standard) : Browser.shows names (pick [2, 1] (outLines (htmlRender (flatten pickSample)))) =
    some [('c', ⟨.Red, .Default, .Bold⟩), ('a', Style.default), ('\n', Style.default)] := by
  rw [C109_html_seen hn stringSink StdString.new pickSample _
    (htmlFinished_exists stringSink stringSink_accepting StdString.new pickSample).2 (by decide) (by decide) [2, 1]]
  decide +kernel

/-- C109: the condition is needed: if the line feed is in red too, the second line alone is not seen in red, and the first line
alone makes red what follows it. -/
theorem C109_styled_break_counterexample :
    let red : Style := ⟨.Red, .Default, .Normal⟩
    let chs : List Chunk := [(str "a\nb", red)]
    ∃ out, AnsiFinished stringSink StdString.new chs out ∧
      (Vt.Screen.fresh.feed ⟨.exclusive, false⟩ (pick [1] (outLines out))).events = [.print 'b' Vt.Pen.plain] ∧
      (Vt.Screen.fresh.feed ⟨.exclusive, false⟩ (pick [0] (outLines out))).pen ≠ Vt.Pen.plain := by
  intro red chs
  exact ⟨_, (ansiFinished_exists stringSink stringSink_accepting StdString.new chs).2, by decide +kernel, by decide +kernel⟩

end Stylish.Props
