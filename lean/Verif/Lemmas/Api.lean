import Verif.Lemmas.Writers
import Verif.Lemmas.StyString
import Verif.Model.Api
/-
The `format` functions in terms of what the program writes.
-/

namespace Stylish

open Spec

/-- The complete ANSI rendering of styled text. -/
def ansiRender (t : Styled) : Str :=
  renderWith ansiSwitch plainEnc Style.default t ++ ansiSwitch (lastStyle Style.default t) Style.default

/-- The complete HTML rendering of styled text. -/
def htmlRender (t : Styled) : Str :=
  renderWith htmlSwitch htmlEnc Style.default t ++ htmlSwitch (lastStyle Style.default t) Style.default

theorem Formatter.writeFmt_eq {W : Type} [Write W] (args : Arguments) (f : Formatter W) :
    Formatter.writeFmt args f = args.f.run f := by
  simp only [Formatter.writeFmt, Act.bind_apply]
  show (match args.f.run f with | _ => _) = args.f.run f
  rcases args.f.run f with ⟨r, f'⟩
  cases r <;> rfl

theorem Write.writeFmt_eq {W : Type} [Write W] (args : Arguments) (w : W) :
    Write.writeFmt args w =
      ((args.f.run ⟨Style.default, FormatterArgs.default, w⟩).1,
       (args.f.run ⟨Style.default, FormatterArgs.default, w⟩).2.write) := by
  simp only [Write.writeFmt, Formatter.writeFmt_eq]
  rfl

/-- What the arguments write, started from the default style. -/
def denote (args : Arguments) : List Chunk × Res FmtError Unit :=
  writes args.f Style.default FormatterArgs.default

theorem Write.writeFmt_accepting {W : Type} [Write W] (hW : Accepting W) (args : Arguments) (w : W) :
    Write.writeFmt args w = ((denote args).2, (writeChunks (denote args).1 w).2) := by
  rw [Write.writeFmt_eq, Disp.run_accepting hW]
  rfl

theorem Write.writeFmt_propagates {W : Type} [Write W] (args : Arguments) (h : Propagates args.f)
    (w : W) :
    Write.writeFmt args w = afterChunks (writeChunks (denote args).1 w) (denote args).2 := by
  rw [Write.writeFmt_eq]
  exact Disp.run_propagates args.f h _ _ w

theorem writes_ne_diverge (d : Disp) (st : Style) (a : FormatterArgs) :
    (writes d st a).2 ≠ .diverge := by
  induction d generalizing st a with
  | done r => cases r <;> simp [writes, ended]
  | panic => simp [writes]
  | writeStr s k ih => exact ih _ _ _
  | within r body k ihb ihk =>
    have := ihb (st.with r) a
    simp only [writes]
    rcases h : writes body (st.with r) a with ⟨l, out⟩
    cases out <;> simp_all
  | withinArgs a' r body k ihb ihk =>
    have := ihb (st.with r) a'
    simp only [writes]
    rcases h : writes body (st.with r) a' with ⟨l, out⟩
    cases out <;> simp_all
  | inspect k ih => exact ih _ _ _ _

/-- The outcome of a `format` function: the value if the program returns `Ok`, else a panic. -/
def formatOutcome {A : Type} (out : Res FmtError Unit) (a : A) : Res Empty A :=
  match out with
  | .ok () => .ok a
  | _ => .panic

theorem plainFormat_eq (args : Arguments) :
    plainFormat args = formatOutcome (denote args).2 (text (flatten (denote args).1)) := by
  have hacc : Accepting (Plain StdString) := plain_accepting stringSink_accepting
  have hd := writes_ne_diverge args.f Style.default FormatterArgs.default
  unfold plainFormat Plain.writeFmt
  rw [Write.writeFmt_accepting hacc]
  have h := plain_writeChunks stringSink (denote args).1 (Plain.new StdString.new)
  rw [Accepting.writeChunks hacc] at h
  have h1 : (writeChunks (denote args).1 (Plain.new StdString.new)).2.inner.chars =
      text (flatten (denote args).1) := by simpa [Plain.new, StdString.new, stringSink] using h.1
  change (denote args).2 ≠ _ at hd
  rcases hout : (denote args).2 with u | u | _ | _
  · simp [expectState, formatOutcome, Plain.intoInner, h1]
  · rfl
  · rfl
  · exact absurd hout hd

theorem ansiFormat_eq (args : Arguments) :
    ansiFormat args = formatOutcome (denote args).2 (ansiRender (flatten (denote args).1)) := by
  have hacc : Accepting (Ansi StdString) := Ansi.accepting stringSink_accepting
  have hd := writes_ne_diverge args.f Style.default FormatterArgs.default
  unfold ansiFormat Ansi.writeFmt
  rw [Write.writeFmt_accepting hacc]
  have h := (Ansi.renders stringSink).writeChunks_accepting hacc (denote args).1
    (Ansi.new StdString.new)
  generalize (writeChunks (denote args).1 (Ansi.new StdString.new)).2 = w at h
  change (denote args).2 ≠ _ at hd
  rcases hout : (denote args).2 with u | u | _ | _
  · simp only [expectState, Res.andThen, formatOutcome, id]
    have h2 := Ansi.finish_emits stringSink w
    obtain ⟨u, w', hw'⟩ := Ansi.finish_neverFails stringSink_accepting w
    rw [hw'] at h2 ⊢
    have h3 : w'.inner.chars = _ := h2.1
    simp only [h3, h.1, h.2]
    simp [Ansi.new, StdString.new, stringSink, ansiRender]
  · rfl
  · rfl
  · exact absurd hout hd

theorem htmlFormat_eq (args : Arguments) :
    htmlFormat args = formatOutcome (denote args).2 (htmlRender (flatten (denote args).1)) := by
  have hacc : Accepting (Html StdString) := Html.accepting stringSink_accepting
  have hd := writes_ne_diverge args.f Style.default FormatterArgs.default
  unfold htmlFormat Html.writeFmt
  rw [Write.writeFmt_accepting hacc]
  have h := (Html.renders stringSink).writeChunks_accepting hacc (denote args).1
    (Html.new StdString.new)
  generalize (writeChunks (denote args).1 (Html.new StdString.new)).2 = w at h
  change (denote args).2 ≠ _ at hd
  rcases hout : (denote args).2 with u | u | _ | _
  · simp only [expectState, Res.andThen, formatOutcome, id]
    have h2 := Html.finish_emits stringSink w
    obtain ⟨u, w', hw'⟩ := Html.finish_neverFails stringSink_accepting w
    rw [hw'] at h2 ⊢
    have h3 : w'.inner.chars = _ := h2.1
    simp only [h3, h.1, h.2]
    simp [Html.new, StdString.new, stringSink, htmlRender]
  · rfl
  · rfl
  · exact absurd hout hd

theorem coreFormat_eq (args : Arguments) :
    ∃ segs, coreFormat args = formatOutcome (denote args).2 (StyString.ofSegs segs) ∧
      flatten segs = flatten (denote args).1 ∧ StyString.Alternating segs := by
  have hd := writes_ne_diverge args.f Style.default FormatterArgs.default
  obtain ⟨segs, h1, h2, h3⟩ := StyString.writeChunks_ofSegs (denote args).1 [] trivial
  refine ⟨segs, ?_, by simpa using h2, h3⟩
  unfold coreFormat
  rw [Write.writeFmt_accepting StyString.accepting]
  have h1' : writeChunks (denote args).1 StyString.new = (.ok (), StyString.ofSegs segs) := h1
  rw [h1']
  change (denote args).2 ≠ _ at hd
  rcases hout : (denote args).2 with u | u | _ | _
  · rfl
  · rfl
  · rfl
  · exact absurd hout hd

end Stylish
