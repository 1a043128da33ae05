import Verif.Spec.Buffer
import Verif.Lemmas.InFormatter
import Verif.Lemmas.Api
import Verif.Props.Compose
import Verif.Props.Io
/-
C123: writers around a buffer of fixed size.
-/

namespace Stylish.Props

open Spec

section
variable {T : Type} [FmtWrite T] {cap : Nat}

/-- The buffer, which held `d`, has got all that the string has got. -/
def Kept (b : FixedBuffer T cap) (d : Str) (s : StdString) (t : T) : Prop :=
  b.delivered t = d ++ s.chars ∧ strLen (d ++ s.chars) ≤ cap

/-- The buffer is too small for what the string has got. -/
def Spilt (b : FixedBuffer T cap) (d : Str) (s : StdString) (r : Res FmtError Unit) (t : T) : Prop :=
  r = .err () ∧ cap < strLen (d ++ s.chars) ∧ ∃ p, p <+: s.chars ∧ b.delivered t = d ++ p

/-- More text. -/
def Longer (a b : StdString) : Prop := a.chars <+: b.chars

theorem spilt_fits (b : FixedBuffer T cap) (d : Str) : AddsUp Longer (Spilt b d) := by
  refine ⟨fun _ => List.prefix_rfl, fun _ _ _ => List.IsPrefix.trans, ?_⟩
  rintro ⟨x⟩ ⟨y⟩ r t ⟨h1, h2, p, h3, h4⟩ ⟨z, hz⟩
  refine ⟨h1, ?_, p, h3.trans ⟨z, hz⟩, h4⟩
  simp only at hz h2 ⊢
  rw [← hz]
  simp only [strLen_append] at h2 ⊢
  omega

theorem kept_alike (b : FixedBuffer T cap) (d s : Str) :
    SameAnswers Longer (Kept b d) (Spilt b d) (FmtWrite.writeStr s : Act StdString FmtError Unit)
      (FmtWrite.writeStr s : Act T FmtError Unit) := by
  refine ⟨fun a => List.prefix_append _ _, ?_⟩
  rintro ⟨x⟩ t ⟨h1, h2⟩
  have e : (FmtWrite.writeStr s : Act StdString FmtError Unit) ⟨x⟩ = (.ok (), ⟨x ++ s⟩) := rfl
  rw [e]
  rcases hw : (FmtWrite.writeStr s : Act T FmtError Unit) t with ⟨r, t'⟩
  by_cases hc : strLen (b.delivered t) + strLen s ≤ cap
  · left
    have hf := b.fits s t hc
    rw [hw] at hf
    simp only at hf
    subst hf
    refine ⟨rfl, ?_, ?_⟩
    · rw [b.ok s t t' hw, h1]
      exact List.append_assoc _ _ _
    · rw [h1] at hc
      simp only [strLen_append] at hc ⊢
      omega
  · right
    have hf := b.full s t (by omega)
    rw [hw] at hf
    simp only at hf
    subst hf
    obtain ⟨p, hp, hd⟩ := b.notOk s t t' _ hw (by simp)
    refine ⟨by simp [Res.outcome], rfl, ?_, x ++ p, (List.prefix_append_right_inj x).2 hp, ?_⟩
    · rw [h1] at hc
      simp only [strLen_append] at hc ⊢
      omega
    · rw [hd, h1]
      exact List.append_assoc _ _ _

private theorem inBuffer (b : FixedBuffer T cap) (t : T) (s : StdString) (r : Res FmtError Unit) (t' : T)
    (h : (Res.ok () = r ∧ Kept b (b.delivered t) s t') ∨ (r.outcome ≠ .ok () ∧ Spilt b (b.delivered t) s r.outcome t')) :
    InBuffer b t s.chars r t' := by
  have e : r.outcome = r := by cases r <;> rfl
  rw [e] at h
  rcases h with ⟨h1, h2, h3⟩ | ⟨h1, h2, h3, h4⟩
  · rw [strLen_append] at h3
    exact ⟨fun _ => ⟨h1.symm, h2⟩, fun h => by omega⟩
  · rw [strLen_append] at h3
    exact ⟨fun h => by omega, fun _ => ⟨h2, h4⟩⟩

/-- C123 for `Ansi`: the output is in the buffer if its bytes fit, with the final reset; otherwise the writes or
`finish` fail, and the buffer has got the start of the output. -/
theorem C123_ansi (b : FixedBuffer T cap) (t : T) (ht : strLen (b.delivered t) ≤ cap) (chs : List Chunk) (out : Str)
    (hout : AnsiFinished stringSink StdString.new chs out) (r : Res FmtError Unit) (a : Ansi T)
    (h : (do writeChunks chs; Ansi.finish : Act (Ansi T) FmtError Unit) (Ansi.new t) = (r, a)) :
    InBuffer b t out r a.inner := by
  obtain ⟨x, c, h1, h2, h3⟩ := hout
  have hF := spilt_fits b (b.delivered t)
  have hR := kept_alike b (b.delivered t)
  have key := (SameAnswers.bind (Ansi.fits hF) (chunks_alike (Ansi.fits hF) (Ansi.writeStr_alike hF hR) chs)
    fun _ => Ansi.finish_alike hF hR).2 (Ansi.new StdString.new) (Ansi.new t)
      ⟨⟨(List.append_nil _).symm, by rw [show (Ansi.new StdString.new).inner.chars = [] from rfl, List.append_nil]; exact ht⟩, rfl⟩
  have e : (writeChunks chs >>= fun _ => Ansi.finish : Act (Ansi StdString) FmtError Unit) (Ansi.new StdString.new) =
      (.ok (), c) := by
    rw [Act.bind_apply, h1]
    exact h2
  rw [e, h] at key
  have h3' : c.inner.chars = [] ++ out := h3
  rw [List.nil_append] at h3'
  rw [← h3']
  exact inBuffer b t c.inner r a.inner (key.imp (fun k => ⟨k.1, k.2.1⟩) id)

/-- C123 for `Html`. -/
theorem C123_html (b : FixedBuffer T cap) (t : T) (ht : strLen (b.delivered t) ≤ cap) (chs : List Chunk) (out : Str)
    (hout : HtmlFinished stringSink StdString.new chs out) (r : Res FmtError Unit) (a : Html T)
    (h : (do writeChunks chs; Html.finish : Act (Html T) FmtError Unit) (Html.new t) = (r, a)) :
    InBuffer b t out r a.inner := by
  obtain ⟨x, c, h1, h2, h3⟩ := hout
  have hF := spilt_fits b (b.delivered t)
  have hR := kept_alike b (b.delivered t)
  have key := (SameAnswers.bind (Html.fits hF) (chunks_alike (Html.fits hF) (Html.writeStr_alike hF hR) chs)
    fun _ => Html.finish_alike hF hR).2 (Html.new StdString.new) (Html.new t)
      ⟨⟨(List.append_nil _).symm, by rw [show (Html.new StdString.new).inner.chars = [] from rfl, List.append_nil]; exact ht⟩, rfl⟩
  have e : (writeChunks chs >>= fun _ => Html.finish : Act (Html StdString) FmtError Unit) (Html.new StdString.new) =
      (.ok (), c) := by
    rw [Act.bind_apply, h1]
    exact h2
  rw [e, h] at key
  have h3' : c.inner.chars = [] ++ out := h3
  rw [List.nil_append] at h3'
  rw [← h3']
  exact inBuffer b t c.inner r a.inner (key.imp (fun k => ⟨k.1, k.2.1⟩) id)

/-- C123 for `Plain`: the same with the text alone. -/
theorem C123_plain (b : FixedBuffer T cap) (t : T) (ht : strLen (b.delivered t) ≤ cap) (chs : List Chunk)
    (r : Res FmtError Unit) (a : Plain T) (h : writeChunks chs (Plain.new t) = (r, a)) :
    InBuffer b t (chs.flatMap Prod.fst) r (Plain.intoInner a) := by
  have pf := spilt_fits b (b.delivered t)
  have hF : AddsUp (fun (a b : Plain StdString) => Longer a.inner b.inner)
      (fun (x : Plain StdString) r (y : Plain T) => Spilt b (b.delivered t) x.inner r y.inner) :=
    ⟨fun _ => pf.refl _, fun _ _ _ => pf.trans _ _ _, fun _ _ _ _ => pf.later _ _ _ _⟩
  have hacc := plain_accepting stringSink_accepting
  have h1 := hacc.writeChunks chs (Plain.new StdString.new)
  have h2 := C10_plain_writes stringSink chs StdString.new _ h1
  have key := (chunks_alike hF (Plain.writeStr_alike (kept_alike b (b.delivered t))) chs).2 (Plain.new StdString.new)
    (Plain.new t) ⟨(List.append_nil _).symm,
      by rw [show (Plain.new StdString.new).inner.chars = [] from rfl, List.append_nil]; exact ht⟩
  rw [h, h1] at key
  have e : ((writeChunks chs (Plain.new StdString.new)).2).inner.chars = chs.flatMap Prod.fst :=
    h2.trans (List.nil_append _)
  rw [← e]
  exact inBuffer b t _ r a.inner key

/-- C123, room that suffices: the text, and 12 bytes for each change of style. -/
theorem C123_ansi_room (b : FixedBuffer T cap) (t : T) (chs : List Chunk)
    (hroom : strLen (b.delivered t) + strLen (text (flatten chs)) + 12 * changes (flatten chs) ≤ cap) :
    ∃ a out, (do writeChunks chs; Ansi.finish : Act (Ansi T) FmtError Unit) (Ansi.new t) = (.ok (), a) ∧
      AnsiFinished stringSink StdString.new chs out ∧ b.delivered a.inner = b.delivered t ++ out := by
  have hout := (ansiFinished_exists stringSink stringSink_accepting StdString.new chs).2
  have size := (C52_ansi_size _ _ _ _ hout).2
  rcases h : (do writeChunks chs; Ansi.finish : Act (Ansi T) FmtError Unit) (Ansi.new t) with ⟨r, a⟩
  obtain ⟨rfl, h2⟩ := (C123_ansi b t (by omega) chs _ hout r a h).1 (by omega)
  exact ⟨a, _, rfl, hout, h2⟩

/-- C123, room that suffices: the text, 5 bytes for each character to escape, and 78 for each change of style. -/
theorem C123_html_room (b : FixedBuffer T cap) (t : T) (chs : List Chunk)
    (hroom : strLen (b.delivered t) + strLen (text (flatten chs)) + 5 * specials (flatten chs) +
      78 * changes (flatten chs) ≤ cap) :
    ∃ a out, (do writeChunks chs; Html.finish : Act (Html T) FmtError Unit) (Html.new t) = (.ok (), a) ∧
      HtmlFinished stringSink StdString.new chs out ∧ b.delivered a.inner = b.delivered t ++ out := by
  have hout := (htmlFinished_exists stringSink stringSink_accepting StdString.new chs).2
  have size := (C52_html_size _ _ _ _ hout).2
  rcases h : (do writeChunks chs; Html.finish : Act (Html T) FmtError Unit) (Html.new t) with ⟨r, a⟩
  obtain ⟨rfl, h2⟩ := (C123_html b t (by omega) chs _ hout r a h).1 (by omega)
  exact ⟨a, _, rfl, hout, h2⟩

/-- C123 for format strings: into a buffer goes what `stylish_ansi::format!` returns, if it fits. -/
theorem C123_format_ansi (b : FixedBuffer T cap) (t : T) (ht : strLen (b.delivered t) ≤ cap) (args : Arguments)
    (hp : Propagates args.f) (s : Str) (hs : ansiFormat args = .ok s) (r : Res FmtError Unit) (a : Ansi T)
    (h : (Ansi.writeFmt args >>= fun _ => Ansi.finish) (Ansi.new t) = (r, a)) : InBuffer b t s r a.inner := by
  obtain ⟨hd, rfl⟩ := denote_of_ansiFormat args s hs
  have hout := (ansiFinished_exists stringSink stringSink_accepting StdString.new (denote args).1).2
  refine C123_ansi b t ht _ _ hout r a ?_
  rw [← h, Act.bind_apply, Act.bind_apply]
  have e : Ansi.writeFmt args (Ansi.new t) = writeChunks (denote args).1 (Ansi.new t) := by
    unfold Ansi.writeFmt
    rw [Write.writeFmt_propagates args hp, hd]
    rcases writeChunks (denote args).1 (Ansi.new t) with ⟨r, w⟩
    cases r <;> rfl
  rw [e]

/-- C123 for format strings and HTML. -/
theorem C123_format_html (b : FixedBuffer T cap) (t : T) (ht : strLen (b.delivered t) ≤ cap) (args : Arguments)
    (hp : Propagates args.f) (s : Str) (hs : htmlFormat args = .ok s) (r : Res FmtError Unit) (a : Html T)
    (h : (Html.writeFmt args >>= fun _ => Html.finish) (Html.new t) = (r, a)) : InBuffer b t s r a.inner := by
  rw [htmlFormat_eq] at hs
  have hd : (denote args).2 = .ok () ∧ s = htmlRender (flatten (denote args).1) := by
    rcases hd : (denote args).2 with u | u | _ | _ <;> rw [hd] at hs <;> simp [formatOutcome] at hs
    exact ⟨rfl, hs.symm⟩
  obtain ⟨hd, rfl⟩ := hd
  have hout := (htmlFinished_exists stringSink stringSink_accepting StdString.new (denote args).1).2
  refine C123_html b t ht _ _ hout r a ?_
  rw [← h, Act.bind_apply, Act.bind_apply]
  have e : Html.writeFmt args (Html.new t) = writeChunks (denote args).1 (Html.new t) := by
    unfold Html.writeFmt
    rw [Write.writeFmt_propagates args hp, hd]
    rcases writeChunks (denote args).1 (Html.new t) with ⟨r, w⟩
    cases r <;> rfl
  rw [e]

end

/-! ## The hypotheses of C123 are met -/

/-- `é` in red: 2 bytes of text, and 5 and 4 of escape sequences. -/
def bufferSample : List Chunk := [(['é'], ⟨.Red, .Default, .Normal⟩)]

theorem bufferSample_out : AnsiFinished stringSink StdString.new bufferSample (str "\x1b[31mé\x1b[0m") := by
  have h := (ansiFinished_exists stringSink stringSink_accepting StdString.new bufferSample).2
  have e : ansiRender (flatten bufferSample) = str "\x1b[31mé\x1b[0m" := by decide +kernel
  rwa [e] at h

/-- 11 bytes suffice. -/
example : ∃ a, (do writeChunks bufferSample; Ansi.finish : Act (Ansi (WholeBuffer 11)) FmtError Unit)
    (Ansi.new ⟨[]⟩) = (.ok (), a) ∧ a.inner.chars = str "\x1b[31mé\x1b[0m" := by
  rcases h : (do writeChunks bufferSample; Ansi.finish : Act (Ansi (WholeBuffer 11)) FmtError Unit) (Ansi.new ⟨[]⟩) with ⟨r, a⟩
  obtain ⟨rfl, h2⟩ := (C123_ansi (wholeBuffer 11) ⟨[]⟩ (by decide) bufferSample _ bufferSample_out r a h).1 (by decide)
  exact ⟨a, rfl, h2⟩

/-- 10 do not. -/
example : ∃ a, (do writeChunks bufferSample; Ansi.finish : Act (Ansi (FillBuffer 10)) FmtError Unit)
    (Ansi.new ⟨[]⟩) = (.err (), a) ∧ a.inner.chars <+: str "\x1b[31mé\x1b[0m" := by
  rcases h : (do writeChunks bufferSample; Ansi.finish : Act (Ansi (FillBuffer 10)) FmtError Unit) (Ansi.new ⟨[]⟩) with ⟨r, a⟩
  obtain ⟨rfl, p, h2, h3⟩ := (C123_ansi (fillBuffer 10) ⟨[]⟩ (by decide) bufferSample _ bufferSample_out r a h).2 (by decide)
  refine ⟨a, rfl, ?_⟩
  have h3' : a.inner.chars = [] ++ p := h3
  rw [h3']
  exact h2

/-- What the two buffers have got if there is no room for `finish`. -/
example : ((do writeChunks bufferSample; Ansi.finish : Act (Ansi (WholeBuffer 10)) FmtError Unit) (Ansi.new ⟨[]⟩)).2.inner.chars =
      str "\x1b[31mé" ∧
    ((do writeChunks bufferSample; Ansi.finish : Act (Ansi (FillBuffer 10)) FmtError Unit) (Ansi.new ⟨[]⟩)).2.inner.chars =
      str "\x1b[31mé\x1b[0" := by
  decide +kernel

example : (strLen ((wholeBuffer 14).delivered ⟨[]⟩) + strLen (text (flatten bufferSample)) +
    12 * changes (flatten bufferSample) ≤ 26) := by decide +kernel

end Stylish.Props
