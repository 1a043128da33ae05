import Verif.Props.Compose
import Verif.Props.Api
import Verif.Props.Spelling
/-
C68: when an output can be produced in parts.
-/

namespace Stylish.Props

open Spec Spec.Syntax HtmlReader

variable {T U V : Type} [FmtWrite T] [FmtWrite U] [FmtWrite V]

/-! ## C68 -/

/-- The style of the last character of a text, and of the first. -/
def endsIn (t : Styled) : Option Style := t.getLast?.map Prod.snd
def startsIn (t : Styled) : Option Style := t.head?.map Prod.snd

theorem lastStyle_endsIn (cur : Style) (t : Styled) : lastStyle cur t = (endsIn t).getD cur := by
  induction t generalizing cur with
  | nil => rfl
  | cons x t ih =>
    rw [lastStyle, ih]
    cases t with
    | nil => rfl
    | cons y t => simp [endsIn, List.getLast?_cons_cons]; cases h : (y :: t).getLast? <;> simp_all

theorem lastStyle_cons (a b : Style) (x : Char × Style) (t : Styled) : lastStyle a (x :: t) = lastStyle b (x :: t) := rfl

theorem finished_append (sw : Style → Style → Str) (enc : Char → Str) (u v : Styled) (c : Char) (st d : Style) :
    (renderWith sw enc d (u ++ (c, st) :: v) ++ sw (lastStyle d (u ++ (c, st) :: v)) d =
      (renderWith sw enc d u ++ sw (lastStyle d u) d) ++
        (renderWith sw enc d ((c, st) :: v) ++ sw (lastStyle d ((c, st) :: v)) d)) ↔
      sw (lastStyle d u) st = sw (lastStyle d u) d ++ sw d st := by
  rw [renderWith_append, lastStyle_append, lastStyle_cons (lastStyle d u) d]
  simp only [renderWith, List.append_assoc, List.append_cancel_left_eq]
  rw [← List.append_assoc (sw (lastStyle d u) d), List.append_cancel_right_eq]

theorem ansiSwitch_escs (a b : Style) : (ansiSwitch a b).count ESC = if a = b then 0 else 1 := by
  obtain ⟨h1, h2, h3⟩ := sgrBetween_switch a b
  by_cases h : a = b
  · rw [h1 h, if_pos h]; rfl
  · rw [if_neg h]
    by_cases hb : b = ⟨.Default, .Default, .Normal⟩
    · rw [h2 h hb]; decide
    · obtain ⟨ps, e, -, hps⟩ := h3 h hb
      rw [e, List.count_append, List.count_append]
      have hz : ([';'].intercalate ps).count ESC = 0 := by
        rw [List.count_eq_zero]
        clear e
        intro hm
        cases ps with
        | nil => simp at hm
        | cons p ps =>
          rw [intercalate_segs] at hm
          rcases List.mem_append.1 hm with hm | hm
          · have := (hps p (List.mem_cons_self ..)).2.2 _ hm
            revert this; decide
          · simp only [ansiRest, List.mem_flatMap, List.mem_cons] at hm
            obtain ⟨q, hq, hm | hm⟩ := hm
            · revert hm; decide
            · have := (hps q (List.mem_cons_of_mem _ hq)).2.2 _ hm
              revert this; decide
      rw [hz]
      decide

theorem ansiSwitch_via_default (a b : Style) :
    ansiSwitch a b = ansiSwitch a Style.default ++ ansiSwitch Style.default b ↔
      a = Style.default ∨ b = Style.default := by
  constructor
  · intro h
    have := congrArg (List.count ESC) h
    rw [List.count_append, ansiSwitch_escs, ansiSwitch_escs, ansiSwitch_escs] at this
    by_cases ha : a = Style.default
    · exact .inl ha
    · by_cases hb : b = Style.default
      · exact .inr hb
      · simp only [if_neg ha, if_neg (show ¬ Style.default = b from fun h => hb h.symm)] at this
        split at this <;> omega
  · rintro (rfl | rfl)
    · rw [ansiSwitch_self]; rfl
    · rw [ansiSwitch_self, List.append_nil]

theorem htmlSwitch_via_default (a b : Style) :
    htmlSwitch a b = htmlSwitch a Style.default ++ htmlSwitch Style.default b ↔
      a ≠ b ∨ a = Style.default := by
  by_cases hb : b = Style.default
  · subst hb
    rw [htmlSwitch_self, List.append_nil]
    exact ⟨fun _ => (Decidable.em (a = Style.default)).symm, fun _ => rfl⟩
  · have e1 : htmlSwitch a Style.default = htmlClose a := by simp [htmlSwitch]
    have e2 : htmlSwitch Style.default b = htmlSegs Style.default (Html.segments (b.diffFrom Style.default)) := by
      simp [htmlSwitch, hb]
    rw [e1, e2]
    by_cases hab : a = b
    · subst hab
      rw [htmlSwitch_self]
      have : htmlClose a ≠ [] := by simp [htmlClose, hb]
      constructor
      · intro h
        cases hc : htmlClose a with
        | nil => exact absurd hc this
        | cons x l => rw [hc] at h; cases h
      · rintro (h | h)
        · exact absurd rfl h
        · exact absurd h hb
    · refine ⟨fun _ => .inl hab, fun _ => ?_⟩
      have e3 : htmlSwitch a b = htmlSegs a (Html.segments (b.diffFrom Style.default)) := by
        rw [htmlSwitch, if_pos (fun h => hab h.symm), if_neg hb]
      rw [e3]
      have hne : Html.segments (b.diffFrom Style.default) ≠ [] := segments_ne_nil b hb
      cases hs : Html.segments (b.diffFrom Style.default) with
      | nil => exact absurd hs hne
      | cons p ps => simp [htmlSegs, htmlClose]

/-- The two cases of the joint: one of the texts is empty, or they meet in two styles. -/
theorem finished_parts (sw : Style → Style → Str) (enc : Char → Str) (hself : sw Style.default Style.default = [])
    (P : Style → Style → Prop)
    (hsw : ∀ a b, sw a b = sw a Style.default ++ sw Style.default b ↔ P a b) (u v : Styled) :
    (renderWith sw enc .default (u ++ v) ++ sw (lastStyle .default (u ++ v)) .default =
      (renderWith sw enc .default u ++ sw (lastStyle .default u) .default) ++
        (renderWith sw enc .default v ++ sw (lastStyle .default v) .default)) ↔
      ∀ a ∈ endsIn u, ∀ b ∈ startsIn v, P a b := by
  cases v with
  | nil => simp [renderWith, lastStyle, hself, startsIn]
  | cons x v =>
    obtain ⟨c, st⟩ := x
    rw [finished_append, hsw, lastStyle_endsIn]
    cases h : endsIn u with
    | none => simp [← hsw, hself]
    | some a => simp [startsIn]

/-- C68, ANSI: writing two texts through one `Ansi` gives the concatenation of what two `Ansi` of their own give,
exactly when one of the texts is empty, or the first ends in the default style, or the second starts in it. -/
theorem C68_ansi (k : FmtSink T) (t : T) (k' : FmtSink U) (t' : U) (k'' : FmtSink V) (t'' : V)
    (first second : List Chunk) (out out' whole : Str)
    (h1 : AnsiFinished k t first out) (h2 : AnsiFinished k' t' second out')
    (h : AnsiFinished k'' t'' (first ++ second) whole) :
    whole = out ++ out' ↔
      ∀ a ∈ endsIn (flatten first), ∀ b ∈ startsIn (flatten second),
        a = ⟨.Default, .Default, .Normal⟩ ∨ b = ⟨.Default, .Default, .Normal⟩ := by
  rw [ansiFinished_eq _ _ _ _ h1, ansiFinished_eq _ _ _ _ h2, ansiFinished_eq _ _ _ _ h,
    show flatten (first ++ second) = flatten first ++ flatten second from List.flatMap_append ..]
  exact finished_parts ansiSwitch plainEnc (ansiSwitch_self _) _ ansiSwitch_via_default _ _

/-- C68, HTML: the same with `Html`, exactly unless the first text ends and the second starts in one same style
other than the default. -/
theorem C68_html (k : FmtSink T) (t : T) (k' : FmtSink U) (t' : U) (k'' : FmtSink V) (t'' : V)
    (first second : List Chunk) (out out' whole : Str)
    (h1 : HtmlFinished k t first out) (h2 : HtmlFinished k' t' second out')
    (h : HtmlFinished k'' t'' (first ++ second) whole) :
    whole = out ++ out' ↔
      ∀ a ∈ endsIn (flatten first), ∀ b ∈ startsIn (flatten second),
        a ≠ b ∨ a = ⟨.Default, .Default, .Normal⟩ := by
  rw [htmlFinished_eq _ _ _ _ h1, htmlFinished_eq _ _ _ _ h2, htmlFinished_eq _ _ _ _ h,
    show flatten (first ++ second) = flatten first ++ flatten second from List.flatMap_append ..]
  exact finished_parts htmlSwitch _ (htmlSwitch_self _) _ htmlSwitch_via_default _ _

/-- C41, with the outputs themselves: the newline of `writeln!` is one more `'\n'` at the end of the ANSI and of
the HTML output. -/
theorem C41_outputs {E : Env} (hE : E.Lawful) (format : Str) (args : List (MacroArg ArgVal))
    (scope : Str → ArgVal) (x nl : Arguments) (h : formatArgs E format args scope = .ok x)
    (hnl : formatArgsNl E format args scope = .ok nl) (a b : Str) (ha : ansiFormat x = .ok a)
    (hb : htmlFormat x = .ok b) :
    ansiFormat nl = .ok (a ++ ['\n']) ∧ htmlFormat nl = .ok (b ++ ['\n']) := by
  obtain ⟨h1, h2⟩ := C41_writeln hE format args scope x nl h hnl .default .default
  change (denote nl).2 = (denote x).2 at h1
  change flatten (denote nl).1 = flatten (denote x).1 ++ (if (denote x).2 = _ then _ else _) at h2
  rw [ansiFormat_eq] at ha
  rw [htmlFormat_eq] at hb
  simp only [ansiFormat_eq, htmlFormat_eq, h1, h2]
  rcases hout : (denote x).2 with u | u | _ | _ <;> rw [hout] at ha hb <;> simp [formatOutcome] at ha hb
  subst ha hb
  have ea := (finished_parts ansiSwitch plainEnc (ansiSwitch_self _) _ ansiSwitch_via_default
    (flatten (denote x).1) [('\n', Style.default)]).2 (by simp [startsIn])
  have eb := (finished_parts htmlSwitch htmlEnc (htmlSwitch_self _) _ htmlSwitch_via_default
    (flatten (denote x).1) [('\n', Style.default)]).2 (by
      simp [startsIn]
      intro a _
      exact Decidable.em _ |>.symm)
  simp only [formatOutcome, if_true]
  refine ⟨congrArg _ (ea.trans ?_), congrArg _ (eb.trans ?_)⟩
  · simp [ansiRender, renderWith, lastStyle, ansiSwitch_self, plainEnc]
  · simp [htmlRender, renderWith, lastStyle, htmlSwitch_self, show htmlEnc '\n' = ['\n'] from by decide]

/-- Two texts that meet in red and green: with ANSI the whole is shorter than its parts (no reset in between),
with HTML it is the concatenation. Two that meet in red: neither. -/
example :
    let red : Style := ⟨.Red, .Default, .Normal⟩
    let green : Style := ⟨.Green, .Default, .Normal⟩
    AnsiFinished stringSink StdString.new [(['a'], red)] (str "\x1b[31ma\x1b[0m") ∧
    AnsiFinished stringSink StdString.new [(['b'], green)] (str "\x1b[32mb\x1b[0m") ∧
    AnsiFinished stringSink StdString.new [(['a'], red), (['b'], green)] (str "\x1b[31ma\x1b[32mb\x1b[0m") ∧
    HtmlFinished stringSink StdString.new [(['a'], red)] (str "<span style=color:red>a</span>") ∧
    HtmlFinished stringSink StdString.new [(['b'], green)] (str "<span style=color:green>b</span>") ∧
    HtmlFinished stringSink StdString.new [(['a'], red), (['b'], green)]
      (str "<span style=color:red>a</span><span style=color:green>b</span>") ∧
    HtmlFinished stringSink StdString.new [(['a'], red), (['b'], red)] (str "<span style=color:red>ab</span>") :=
  ⟨⟨_, _, rfl, rfl, rfl⟩, ⟨_, _, rfl, rfl, rfl⟩, ⟨_, _, rfl, rfl, rfl⟩, ⟨_, _, rfl, rfl, rfl⟩,
   ⟨_, _, rfl, rfl, rfl⟩, ⟨_, _, rfl, rfl, rfl⟩, ⟨_, _, rfl, rfl, rfl⟩⟩

end Stylish.Props
