import Verif.Spec.Edit
import Verif.Props.Parts
import Verif.Props.Lines
/-
C112: changing a part of a text changes only that part of the output.
-/

namespace Stylish.Props

open Spec

/-! ## C112 -/

namespace Edit

/-- What comes after the part that is changed: a change of style, and the rest. -/
def joint (sw : Style → Style → Str) : Styled → Style → Str
  | [], x => sw x Style.default
  | (_, st) :: _, x => sw x st

def rest (sw : Style → Style → Str) (enc : Char → Str) : Styled → Str
  | [] => []
  | (c, st) :: r => enc c ++ renderWith sw enc st r ++ sw (lastStyle st r) Style.default

theorem split (sw : Style → Style → Str) (enc : Char → Str) (t after : Styled) :
    renderWith sw enc Style.default (t ++ after) ++ sw (lastStyle Style.default (t ++ after)) Style.default =
      renderWith sw enc Style.default t ++ joint sw after (lastStyle Style.default t) ++ rest sw enc after := by
  rw [renderWith_append, lastStyle_append]
  cases after with
  | nil => simp [renderWith, lastStyle, joint, rest]
  | cons x r =>
    obtain ⟨c, st⟩ := x
    simp [renderWith, lastStyle, joint, rest, List.append_assoc]

theorem flatten_append (a b : List Chunk) : flatten (a ++ b) = flatten a ++ flatten b := List.flatMap_append ..

theorem lines_whole (u : Str) (h : wholeLines u) : ∃ l : List Str, l.length = lineCount u ∧ ∀ v, lines (u ++ v) = l ++ lines v := by
  have key : ∀ r : Str, ∃ l : List Str, l.length = r.count '\n' + 1 ∧ ∀ v, lines (r ++ '\n' :: v) = l ++ lines v := by
    intro r
    induction r with
    | nil => exact ⟨[[]], rfl, fun v => by simp [lines]⟩
    | cons c r ih =>
      obtain ⟨l, h1, h2⟩ := ih
      by_cases hc : c = '\n'
      · exact ⟨[] :: l, by simp [hc, h1], fun v => by rw [List.cons_append, lines, if_pos hc, h2]; rfl⟩
      · cases l with
        | nil => simp at h1
        | cons x l =>
          refine ⟨(c :: x) :: l, ?_, fun v => ?_⟩
          · rw [List.count_cons_of_ne (fun h => hc h)]; simpa using h1
          · rw [List.cons_append, lines, if_neg hc, h2]; rfl
  rcases h with rfl | ⟨r, rfl⟩
  · exact ⟨[], rfl, fun v => rfl⟩
  · obtain ⟨l, h1, h2⟩ := key r
    exact ⟨l, by simp [lineCount, h1], fun v => by rw [List.append_assoc]; exact h2 v⟩

/-- Whole lines of text are whole lines of output, as many. -/
theorem whole_render (sw : Style → Style → Str) (enc : Char → Str) (hsw : ∀ a b, '\n' ∉ sw a b)
    (hnl : enc '\n' = ['\n']) (henc : ∀ c, c ≠ '\n' → '\n' ∉ enc c) (cur : Style) (t : Styled) (h : wholeLines (text t)) :
    wholeLines (renderWith sw enc cur t) ∧ lineCount (renderWith sw enc cur t) = lineCount (text t) := by
  constructor
  · rcases h with h | ⟨r, h⟩
    · have : t = [] := by simpa [text] using h
      exact .inl (by rw [this]; rfl)
    · have hne : t ≠ [] := by rintro rfl; simp [text] at h
      obtain ⟨u, x, rfl⟩ : ∃ u x, t = u ++ [x] := ⟨t.dropLast, t.getLast hne, (List.dropLast_concat_getLast hne).symm⟩
      obtain ⟨c, st⟩ := x
      have hc : c = '\n' := by
        have := congrArg List.getLast? h
        simpa [text] using this
      subst hc
      refine .inr ⟨renderWith sw enc cur u ++ sw (lastStyle cur u) st, ?_⟩
      rw [renderWith_append]
      simp [renderWith, hnl]
  · unfold lineCount
    clear h
    induction t generalizing cur with
    | nil => rfl
    | cons x t ih =>
      obtain ⟨c, st⟩ := x
      have e : text ((c, st) :: t) = [c] ++ text t := rfl
      rw [renderWith, List.count_append, List.count_append, ih, List.count_eq_zero.2 (hsw cur st), e, List.count_append]
      by_cases hc : c = '\n'
      · subst hc; rw [hnl]; omega
      · have hz : List.count '\n' [c] = 0 := List.count_eq_zero.2 (fun h => hc (List.mem_singleton.1 h).symm)
        rw [List.count_eq_zero.2 (henc c hc), hz]

theorem lines_split (sw : Style → Style → Str) (enc : Char → Str) (hsw : ∀ a b, '\n' ∉ sw a b)
    (hnl : enc '\n' = ['\n']) (henc : ∀ c, c ≠ '\n' → '\n' ∉ enc c) (b m m' : Styled) (z : Str)
    (hb : wholeLines (text b)) (hm : wholeLines (text m)) (hm' : wholeLines (text m')) :
    ∃ la lm lm' lb : List Str,
      lines (renderWith sw enc Style.default (b ++ m) ++ z) = la ++ lm ++ lb ∧
      lines (renderWith sw enc Style.default (b ++ m') ++ z) = la ++ lm' ++ lb ∧
      la.length = lineCount (text b) ∧ lm.length = lineCount (text m) ∧ lm'.length = lineCount (text m') := by
  obtain ⟨h1, h2⟩ := whole_render sw enc hsw hnl henc Style.default b hb
  obtain ⟨h3, h4⟩ := whole_render sw enc hsw hnl henc (lastStyle Style.default b) m hm
  obtain ⟨h5, h6⟩ := whole_render sw enc hsw hnl henc (lastStyle Style.default b) m' hm'
  obtain ⟨la, e1, e2⟩ := lines_whole _ h1
  obtain ⟨lm, e3, e4⟩ := lines_whole _ h3
  obtain ⟨lm', e5, e6⟩ := lines_whole _ h5
  refine ⟨la, lm, lm', lines z, ?_, ?_, by rw [e1, h2], by rw [e3, h4], by rw [e5, h6]⟩
  · rw [renderWith_append, List.append_assoc, e2, e4, List.append_assoc]
  · rw [renderWith_append, List.append_assoc, e2, e6, List.append_assoc]

theorem ansi_nl (a b : Style) : '\n' ∉ ansiSwitch a b := fun h => by
  have := ansiSwitch_marks a b _ h
  revert this; decide

theorem html_nl (a b : Style) : '\n' ∉ htmlSwitch a b := fun h => by
  have := htmlSwitch_printable a b _ h
  revert this; decide

end Edit

/-- C112: of a text of three parts, the output of `Ansi` is that of the first two (which starts with that of the first), at
most one change of style that depends only on the style they end in, and a rest that does not depend on the first two at all. So if
the part in the middle is replaced, only the output of that part changes, and the change of style after it. -/
theorem C112_ansi (before after : List Chunk) :
    ∃ (change : Option Style → Str) (rest : Str), (∀ x, strLen (change x) ≤ 12) ∧
      ∀ {T : Type} [FmtWrite T] (k : FmtSink T) (t : T) (middle : List Chunk) (out : Str),
        AnsiFinished k t (before ++ middle ++ after) out →
        ∃ first both, AnsiWrote stringSink StdString.new before first ∧
          AnsiWrote stringSink StdString.new (before ++ middle) both ∧ first <+: both ∧
          out = both ++ change (endsIn (flatten (before ++ middle))) ++ rest := by
  refine ⟨fun x => Edit.joint ansiSwitch (flatten after) (x.getD Style.default),
    Edit.rest ansiSwitch plainEnc (flatten after), fun x => ?_, fun k t middle out h => ?_⟩
  · have key : ∀ a b, strLen (ansiSwitch a b) ≤ 12 := fun a b => by
      by_cases hab : a = b
      · rw [hab, ansiSwitch_self]; decide
      · exact (ansiSwitch_len a b hab).2
    cases hf : flatten after with
    | nil => exact key _ _
    | cons y r => exact key _ _
  · refine ⟨_, _, (ansiFinished_exists stringSink stringSink_accepting StdString.new before).1,
      (ansiFinished_exists stringSink stringSink_accepting StdString.new (before ++ middle)).1, ?_, ?_⟩
    · rw [Edit.flatten_append, renderWith_append]; exact List.prefix_append ..
    · rw [ansiFinished_eq k t _ out h, ansiRender, Edit.flatten_append _ after, Edit.split, lastStyle_endsIn]

/-- C112 for `Html`. -/
theorem C112_html (before after : List Chunk) :
    ∃ (change : Option Style → Str) (rest : Str), (∀ x, strLen (change x) ≤ 78) ∧
      ∀ {T : Type} [FmtWrite T] (k : FmtSink T) (t : T) (middle : List Chunk) (out : Str),
        HtmlFinished k t (before ++ middle ++ after) out →
        ∃ first both, HtmlWrote stringSink StdString.new before first ∧
          HtmlWrote stringSink StdString.new (before ++ middle) both ∧ first <+: both ∧
          out = both ++ change (endsIn (flatten (before ++ middle))) ++ rest := by
  refine ⟨fun x => Edit.joint htmlSwitch (flatten after) (x.getD Style.default),
    Edit.rest htmlSwitch htmlEnc (flatten after), fun x => ?_, fun k t middle out h => ?_⟩
  · have key : ∀ a b, strLen (htmlSwitch a b) ≤ 78 := fun a b => by
      by_cases hab : a = b
      · rw [hab, htmlSwitch_self]; decide
      · exact (htmlSwitch_len a b hab).2
    cases hf : flatten after with
    | nil => exact key _ _
    | cons y r => exact key _ _
  · refine ⟨_, _, (htmlFinished_exists stringSink stringSink_accepting StdString.new before).1,
      (htmlFinished_exists stringSink stringSink_accepting StdString.new (before ++ middle)).1, ?_, ?_⟩
    · rw [Edit.flatten_append, renderWith_append]; exact List.prefix_append ..
    · rw [htmlFinished_eq k t _ out h, htmlRender, Edit.flatten_append _ after, Edit.split, lastStyle_endsIn]

/-- C112, line by line, as `diff` shows it: if whole lines of a text are replaced, added or removed, and the style at their end
is the same, then the lines of the output of `Ansi` before and after them are the same. -/
theorem C112_ansi_lines {T U : Type} [FmtWrite T] [FmtWrite U] (k : FmtSink T) (t : T) (k' : FmtSink U) (t' : U)
    (before middle middle' after : List Chunk) (out out' : Str)
    (hb : wholeLines (text (flatten before))) (hm : wholeLines (text (flatten middle)))
    (hm' : wholeLines (text (flatten middle')))
    (hsame : endsIn (flatten (before ++ middle)) = endsIn (flatten (before ++ middle')))
    (h : AnsiFinished k t (before ++ middle ++ after) out) (h' : AnsiFinished k' t' (before ++ middle' ++ after) out') :
    ∃ first mine mine' last : List Str,
      lines out = first ++ mine ++ last ∧ lines out' = first ++ mine' ++ last ∧
      first.length = lineCount (text (flatten before)) ∧ mine.length = lineCount (text (flatten middle)) ∧
      mine'.length = lineCount (text (flatten middle')) := by
  rw [ansiFinished_eq k t _ out h, ansiFinished_eq k' t' _ out' h', ansiRender, ansiRender, Edit.flatten_append _ after,
    Edit.flatten_append _ after, Edit.split, Edit.split, lastStyle_endsIn, lastStyle_endsIn, ← hsame, Edit.flatten_append,
    Edit.flatten_append, List.append_assoc, List.append_assoc]
  refine Edit.lines_split ansiSwitch plainEnc Edit.ansi_nl rfl (fun c hc h => ?_) _ _ _ _ hb hm hm'
  simp only [plainEnc, List.mem_singleton] at h
  exact hc h.symm

/-- C112, line by line, for `Html`. -/
theorem C112_html_lines {T U : Type} [FmtWrite T] [FmtWrite U] (k : FmtSink T) (t : T) (k' : FmtSink U) (t' : U)
    (before middle middle' after : List Chunk) (out out' : Str)
    (hb : wholeLines (text (flatten before))) (hm : wholeLines (text (flatten middle)))
    (hm' : wholeLines (text (flatten middle')))
    (hsame : endsIn (flatten (before ++ middle)) = endsIn (flatten (before ++ middle')))
    (h : HtmlFinished k t (before ++ middle ++ after) out) (h' : HtmlFinished k' t' (before ++ middle' ++ after) out') :
    ∃ first mine mine' last : List Str,
      lines out = first ++ mine ++ last ∧ lines out' = first ++ mine' ++ last ∧
      first.length = lineCount (text (flatten before)) ∧ mine.length = lineCount (text (flatten middle)) ∧
      mine'.length = lineCount (text (flatten middle')) := by
  rw [htmlFinished_eq k t _ out h, htmlFinished_eq k' t' _ out' h', htmlRender, htmlRender, Edit.flatten_append _ after,
    Edit.flatten_append _ after, Edit.split, Edit.split, lastStyle_endsIn, lastStyle_endsIn, ← hsame, Edit.flatten_append,
    Edit.flatten_append, List.append_assoc, List.append_assoc]
  exact Edit.lines_split htmlSwitch htmlEnc Edit.html_nl rfl htmlEnc_nl _ _ _ _ hb hm hm'

/-! ### Samples -/

/-- Two lines, the second of which is replaced by two others; each ends in the default style, as text written by `writeln!` does. -/
def editBefore : List Chunk := [(str "ok", ⟨.Green, .Default, .Normal⟩), (str "\n", Style.default)]
def editMiddle : List Chunk := [(str "bad", ⟨.Red, .Default, .Bold⟩), (str "\n", Style.default)]
def editMiddle' : List Chunk := [(str "a", ⟨.Red, .Default, .Bold⟩), (str "\nb\n", Style.default)]
def editAfter : List Chunk := [(str "end", ⟨.Blue, .Default, .Normal⟩)]

example : AnsiFinished stringSink StdString.new (editBefore ++ editMiddle ++ editAfter)
      (str "\x1b[32mok\x1b[0m\n\x1b[31;1mbad\x1b[0m\n\x1b[34mend\x1b[0m") ∧
    AnsiFinished stringSink StdString.new (editBefore ++ editMiddle' ++ editAfter)
      (str "\x1b[32mok\x1b[0m\n\x1b[31;1ma\x1b[0m\nb\n\x1b[34mend\x1b[0m") ∧
    wholeLines (text (flatten editBefore)) ∧ wholeLines (text (flatten editMiddle)) ∧ wholeLines (text (flatten editMiddle')) ∧
    endsIn (flatten (editBefore ++ editMiddle)) = endsIn (flatten (editBefore ++ editMiddle')) := by
  refine ⟨?_, ?_, .inr ⟨str "ok", by decide⟩, .inr ⟨str "bad", by decide⟩, .inr ⟨str "a\nb", by decide⟩, by decide⟩
  · have := (ansiFinished_exists stringSink stringSink_accepting StdString.new (editBefore ++ editMiddle ++ editAfter)).2
    rwa [show ansiRender (flatten (editBefore ++ editMiddle ++ editAfter)) =
      str "\x1b[32mok\x1b[0m\n\x1b[31;1mbad\x1b[0m\n\x1b[34mend\x1b[0m" by decide +kernel] at this
  · have := (ansiFinished_exists stringSink stringSink_accepting StdString.new (editBefore ++ editMiddle' ++ editAfter)).2
    rwa [show ansiRender (flatten (editBefore ++ editMiddle' ++ editAfter)) =
      str "\x1b[32mok\x1b[0m\n\x1b[31;1ma\x1b[0m\nb\n\x1b[34mend\x1b[0m" by decide +kernel] at this

/-- C112: the condition on the style at the end is needed: with a line feed in red, the next line of the output is another. -/
theorem C112_style_counterexample :
    let middle : List Chunk := [(str "a\n", Style.default)]
    let middle' : List Chunk := [(str "a\n", ⟨.Red, .Default, .Normal⟩)]
    let after : List Chunk := [(str "b", Style.default)]
    ∃ out out', AnsiFinished stringSink StdString.new (middle ++ after) out ∧
      AnsiFinished stringSink StdString.new (middle' ++ after) out' ∧
      (lines out).getLast? = some (str "b") ∧ (lines out').getLast? = some (str "\x1b[0mb") := by
  intro middle middle' after
  exact ⟨_, _, (ansiFinished_exists stringSink stringSink_accepting StdString.new (middle ++ after)).2,
    (ansiFinished_exists stringSink stringSink_accepting StdString.new (middle' ++ after)).2, by decide +kernel, by decide +kernel⟩

end Stylish.Props
