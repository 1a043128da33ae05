import Verif.Lemmas.InFormatter
import Verif.Props.CarryOn
/-
C100: a writer around a formatter.
-/

namespace Stylish.Props

open Spec

/-- A stream that takes everything and remembers the calls. -/
structure CallList where
  calls : List Str

instance : FmtWrite CallList := ⟨fun s h => (.ok (), ⟨h.calls ++ [s]⟩)⟩

/-- What was delivered to it. -/
def callList : FmtSink CallList where
  delivered h := h.calls.flatten
  ok := by
    rintro s ⟨t⟩ ⟨t'⟩ h
    have := (Prod.mk.inj h).2
    simp at this
    rw [← this]; simp
  notOk := by
    rintro s ⟨t⟩ ⟨t'⟩ r h hr
    exact absurd (Prod.mk.inj h).1.symm hr

theorem callList_accepting : AcceptingSink CallList := fun _ _ => rfl

section
variable {W : Type} [Write W]

/-- The given pieces of text, in one style. -/
def inStyle (st : Style) (l : List Str) : List Chunk := l.map fun s => (s, st)

/-- The formatter is where the calls have brought it, all of which succeeded. -/
def Played (f : Formatter W) (h : CallList) (g : Formatter W) : Prop :=
  ∃ w, writeChunks (inStyle f.style h.calls) f.write = (.ok (), w) ∧ g = { f with write := w }

/-- The first of the calls have brought the formatter to where it is, the last of them with the given result. -/
def PlayedPart (f : Formatter W) (h : CallList) (r : Res FmtError Unit) (g : Formatter W) : Prop :=
  ∃ w p, p <+: h.calls ∧ writeChunks (inStyle f.style p) f.write = (r, w) ∧ g = { f with write := w }

/-- More calls. -/
def MoreCalls (a b : CallList) : Prop := a.calls <+: b.calls

theorem played_fits (f : Formatter W) : AddsUp MoreCalls (PlayedPart f) :=
  ⟨fun _ => List.prefix_rfl, fun _ _ _ => List.IsPrefix.trans,
    fun _ _ _ _ ⟨w, p, h1, h2⟩ h => ⟨w, p, h1.trans h, h2⟩⟩

theorem played_alike (f : Formatter W) (s : Str) :
    SameAnswers MoreCalls (Played f) (PlayedPart f) (FmtWrite.writeStr s : Act CallList FmtError Unit)
      (FmtWrite.writeStr s : Act (Formatter W) FmtError Unit) := by
  refine ⟨fun a => List.prefix_append _ _, ?_⟩
  rintro ⟨calls⟩ g ⟨w, hw, rfl⟩
  have e : ∀ g : Formatter W, (FmtWrite.writeStr s : Act (Formatter W) FmtError Unit) g = Formatter.writeStr s g :=
    fun _ => rfl
  rw [e, Formatter.writeStr_eq]
  have e2 : writeChunks (inStyle f.style (calls ++ [s])) f.write = Write.writeStr s f.style w := by
    rw [inStyle, List.map_append, writeChunks_append]
    show (match writeChunks (inStyle f.style calls) f.write with
      | (.ok (), w') => writeChunks [(s, f.style)] w'
      | (r, w') => (r, w')) = _
    rw [hw]
    show writeChunks [(s, f.style)] w = _
    rw [writeChunks_cons]
    rcases Write.writeStr s f.style w with ⟨r, w'⟩
    cases r <;> rfl
  simp only
  rcases h : Write.writeStr s f.style w with ⟨r, w'⟩
  rw [h] at e2
  cases r with
  | ok u => exact .inl ⟨rfl, w', e2, rfl⟩
  | err x => exact .inr ⟨by simp [Res.outcome], w', calls ++ [s], List.prefix_rfl, e2, rfl⟩
  | panic => exact .inr ⟨by simp [Res.outcome], w', calls ++ [s], List.prefix_rfl, e2, rfl⟩
  | diverge => exact .inr ⟨by simp [Res.outcome], w', calls ++ [s], List.prefix_rfl, e2, rfl⟩

/-- What is said about a writer put around a formatter `f`, given how its use ended: the formatter's own writer has
got the source of the markup as text in the style of `f`, or its start, if it has failed on the way. -/
def SourceWritten (f : Formatter W) (source : List Str) (r : Res FmtError Unit) (g : Formatter W) : Prop :=
  ∃ w part, part <+: source ∧ writeChunks (inStyle f.style part) f.write = (r, w) ∧ g = { f with write := w } ∧
    (r = .ok () → part = source)

private theorem written (f : Formatter W) (h : CallList) (r : Res FmtError Unit) (g : Formatter W)
    (hc : (Res.ok () = r ∧ Played f h g) ∨ (r.outcome ≠ .ok () ∧ PlayedPart f h r.outcome g)) :
    SourceWritten f h.calls r g := by
  have e : r.outcome = r := by cases r <;> rfl
  rw [e] at hc
  rcases hc with ⟨rfl, w, h1, h2⟩ | ⟨hr, w, p, h1, h2, h3⟩
  · exact ⟨w, h.calls, List.prefix_rfl, h1, h2, fun _ => rfl⟩
  · exact ⟨w, p, h1, h2, h3, fun h => absurd h hr⟩

/-- C100 for `Html`: what is written to an `Html` around a formatter comes out of the formatter as text in the
formatter's own style: the text of the markup, whatever styles it is about; and everything that the formatter's
writer takes. -/
theorem C100_html (f : Formatter W) (chs : List Chunk) :
    ∃ source : List Str, HtmlFinished stringSink StdString.new chs source.flatten ∧
      ∀ r b, (do writeChunks chs; Html.finish : Act (Html (Formatter W)) FmtError Unit) (Html.new f) = (r, b) →
        SourceWritten f source r b.inner := by
  obtain ⟨a, b, h1, h2, h3⟩ := (htmlFinished_exists callList callList_accepting ⟨[]⟩ chs).2
  refine ⟨b.inner.calls, ?_, ?_⟩
  · have h3' : b.inner.calls.flatten = [] ++ _ := h3
    rw [h3', List.nil_append]
    exact (htmlFinished_exists stringSink stringSink_accepting StdString.new chs).2
  · intro r c h
    have hF := Html.fits (played_fits f)
    have key := (SameAnswers.bind hF (chunks_alike hF (Html.writeStr_alike (played_fits f) (played_alike f)) chs)
      fun _ => Html.finish_alike (played_fits f) (played_alike f)).2 (Html.new ⟨[]⟩) (Html.new f) ⟨⟨f.write, rfl, rfl⟩, rfl⟩
    have e : ((writeChunks chs >>= fun _ => Html.finish : Act (Html CallList) FmtError Unit) (Html.new ⟨[]⟩)) = (.ok (), b) := by
      rw [Act.bind_apply, h1]
      exact h2
    rw [e, h] at key
    exact written f b.inner r c.inner (key.imp (fun k => ⟨k.1, k.2.1⟩) id)

/-- C100 for `Ansi`. -/
theorem C100_ansi (f : Formatter W) (chs : List Chunk) :
    ∃ source : List Str, AnsiFinished stringSink StdString.new chs source.flatten ∧
      ∀ r b, (do writeChunks chs; Ansi.finish : Act (Ansi (Formatter W)) FmtError Unit) (Ansi.new f) = (r, b) →
        SourceWritten f source r b.inner := by
  obtain ⟨a, b, h1, h2, h3⟩ := (ansiFinished_exists callList callList_accepting ⟨[]⟩ chs).2
  refine ⟨b.inner.calls, ?_, ?_⟩
  · have h3' : b.inner.calls.flatten = [] ++ _ := h3
    rw [h3', List.nil_append]
    exact (ansiFinished_exists stringSink stringSink_accepting StdString.new chs).2
  · intro r c h
    have hF := Ansi.fits (played_fits f)
    have key := (SameAnswers.bind hF (chunks_alike hF (Ansi.writeStr_alike (played_fits f) (played_alike f)) chs)
      fun _ => Ansi.finish_alike (played_fits f) (played_alike f)).2 (Ansi.new ⟨[]⟩) (Ansi.new f) ⟨⟨f.write, rfl, rfl⟩, rfl⟩
    have e : ((writeChunks chs >>= fun _ => Ansi.finish : Act (Ansi CallList) FmtError Unit) (Ansi.new ⟨[]⟩)) = (.ok (), b) := by
      rw [Act.bind_apply, h1]
      exact h2
    rw [e, h] at key
    exact written f b.inner r c.inner (key.imp (fun k => ⟨k.1, k.2.1⟩) id)

/-- C100 for `Plain`: the text without its styles, in the formatter's style. -/
theorem C100_plain (f : Formatter W) (chs : List Chunk) :
    ∃ source : List Str, source.flatten = chs.flatMap Prod.fst ∧
      ∀ r a, writeChunks chs (Plain.new f) = (r, a) → SourceWritten f source r (Plain.intoInner a) := by
  have hacc := plain_accepting callList_accepting
  have h1 := hacc.writeChunks chs (Plain.new ⟨[]⟩)
  have h2 := C10_plain_writes callList chs ⟨[]⟩ _ h1
  refine ⟨((writeChunks chs (Plain.new (⟨[]⟩ : CallList))).2).inner.calls, h2.trans (List.nil_append _), ?_⟩
  intro r a h
  have pf := played_fits f
  have hF : AddsUp (fun (a b : Plain CallList) => MoreCalls a.inner b.inner)
      (fun (a : Plain CallList) r (b : Plain (Formatter W)) => PlayedPart f a.inner r b.inner) :=
    ⟨fun _ => pf.refl _, fun _ _ _ => pf.trans _ _ _, fun _ _ _ _ => pf.later _ _ _ _⟩
  have key := (chunks_alike hF (Plain.writeStr_alike (played_alike f)) chs).2 (Plain.new ⟨[]⟩) (Plain.new f)
    ⟨f.write, rfl, rfl⟩
  rw [h, h1] at key
  exact written f _ r a.inner key

end

theorem flatten_calls (l : List Str) (st : Style) : flatten (inStyle st l) = paint l.flatten st := by
  unfold inStyle
  induction l with
  | nil => rfl
  | cons s l ih => simp only [List.map_cons, flatten_cons, ih, List.flatten_cons]; simp [paint]

/-- C100, HTML within HTML: if the formatter writes to an `Html` itself, then the page, read as a browser would, shows
the source of the inner markup, in the style of the formatter. -/
theorem C100_Html_in_html (st : Style) (args : FormatterArgs) (chs : List Chunk) :
    ∃ b : Html (Formatter (Html StdString)), ∃ c source,
      (do writeChunks chs; Html.finish : Act (Html (Formatter (Html StdString))) FmtError Unit)
        (Html.new ⟨st, args, Html.new StdString.new⟩) = (.ok (), b) ∧
      HtmlFinished stringSink StdString.new chs source ∧
      Html.finish b.inner.write = (.ok (), c) ∧
      HtmlReader.read c.inner.chars = some (paint source st) := by
  have hacc : Accepting (Html StdString) := Html.accepting stringSink_accepting
  obtain ⟨source, h4, h⟩ := C100_html ⟨st, args, Html.new StdString.new⟩ chs
  rcases hb : (do writeChunks chs; Html.finish : Act (Html (Formatter (Html StdString))) FmtError Unit)
        (Html.new ⟨st, args, Html.new StdString.new⟩) with ⟨r, b⟩
  obtain ⟨w, part, h1, h2, h3, hr⟩ := h r b hb
  have hS := (htmlFinished_exists stringSink stringSink_accepting StdString.new (inStyle st part)).2
  have hread := C19_reads_back _ _ _ _ hS
  obtain ⟨x, c, g1, g2, g3⟩ := hS
  have h2' := h2.symm.trans g1
  obtain ⟨rfl, rfl⟩ := Prod.mk.inj h2'
  obtain rfl := hr rfl
  refine ⟨b, c, part.flatten, rfl, h4, ?_, ?_⟩
  · rw [h3]
    exact g2
  · have g3' : c.inner.chars = [] ++ _ := g3
    rw [g3', List.nil_append, hread, flatten_calls]

/-- C100, ANSI within HTML, and so on: any markup within `Html` is text in the style of the formatter. -/
theorem C100_Ansi_in_html (st : Style) (args : FormatterArgs) (chs : List Chunk) :
    ∃ b : Ansi (Formatter (Html StdString)), ∃ c source,
      (do writeChunks chs; Ansi.finish : Act (Ansi (Formatter (Html StdString))) FmtError Unit)
        (Ansi.new ⟨st, args, Html.new StdString.new⟩) = (.ok (), b) ∧
      AnsiFinished stringSink StdString.new chs source ∧
      Html.finish b.inner.write = (.ok (), c) ∧
      HtmlReader.read c.inner.chars = some (paint source st) := by
  have hacc : Accepting (Html StdString) := Html.accepting stringSink_accepting
  obtain ⟨source, h4, h⟩ := C100_ansi ⟨st, args, Html.new StdString.new⟩ chs
  rcases hb : (do writeChunks chs; Ansi.finish : Act (Ansi (Formatter (Html StdString))) FmtError Unit)
        (Ansi.new ⟨st, args, Html.new StdString.new⟩) with ⟨r, b⟩
  obtain ⟨w, part, h1, h2, h3, hr⟩ := h r b hb
  have hS := (htmlFinished_exists stringSink stringSink_accepting StdString.new (inStyle st part)).2
  have hread := C19_reads_back _ _ _ _ hS
  obtain ⟨x, c, g1, g2, g3⟩ := hS
  have h2' := h2.symm.trans g1
  obtain ⟨rfl, rfl⟩ := Prod.mk.inj h2'
  obtain rfl := hr rfl
  refine ⟨b, c, part.flatten, rfl, h4, ?_, ?_⟩
  · rw [h3]
    exact g2
  · have g3' : c.inner.chars = [] ++ _ := g3
    rw [g3', List.nil_append, hread, flatten_calls]

/-- Non-vacuity: a red `<` in an `Html` around a bold formatter on an `Html`. -/
example :
    (let f : Formatter (Html StdString) := ⟨⟨.Default, .Default, .Bold⟩, FormatterArgs.default, Html.new StdString.new⟩
     let a := writeChunks [(['<'], ⟨.Red, .Default, .Normal⟩)] (Html.new f)
     (Html.finish (Html.finish a.2).2.inner.write).2.inner.chars =
       str "<span style=font-weight:bolder>&lt;span style=color:red&gt;&amp;lt;&lt;/span&gt;</span>") := by
  decide +kernel

/-- Non-vacuity: the formatter's writer fails within the inner markup. -/
example :
    (let f : Formatter (Plain LimitedSink) := ⟨Style.default, FormatterArgs.default, Plain.new ⟨[], 10⟩⟩
     let x := (do writeChunks [(['<'], ⟨.Red, .Default, .Normal⟩)]; Html.finish :
       Act (Html (Formatter (Plain LimitedSink))) FmtError Unit) (Html.new f)
     x.1 = .err () ∧ x.2.inner.write.inner.chars = str "<span styl") := by
  decide +kernel

end Stylish.Props
