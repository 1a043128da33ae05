import Verif.Lemmas.Api
import Verif.Props.Formatter
/-
Properties of the plain backend, of the attributed string, and of the `format` functions:
C10, C11, C12, C13, C43.

`writes d style args` (Spec/Text.lean) is the list of writes program `d` makes and its outcome;
`flatten` turns a list of writes into styled characters.
-/

namespace Stylish.Props

open Spec

/-! ## C10 -/

/-- C10: `plain::format` returns exactly the text written, whatever the styles. -/
theorem C10_plain_format (args : Arguments) (log : List Chunk)
    (h : writes args.f Style.default FormatterArgs.default = (log, .ok ())) :
    plainFormat args = .ok (log.flatMap Prod.fst) := by
  have e : log.flatMap Prod.fst = text (flatten log) := by
    clear h
    induction log with
    | nil => rfl
    | cons x l ih => simp [flatten_cons, ih]
  rw [e, plainFormat_eq, denote, h]
  rfl

/-- C10: after any successful sequence of styled writes to `Plain`, exactly the concatenated texts have
been delivered to the stream inside. -/
theorem C10_plain_writes {T : Type} [FmtWrite T] (k : FmtSink T) (chs : List Chunk) (t t' : T)
    (h : writeChunks chs (Plain.new t) = (.ok (), ⟨t'⟩)) :
    k.delivered t' = k.delivered t ++ chs.flatMap Prod.fst := by
  have e : text (flatten chs) = chs.flatMap Prod.fst := by
    clear h
    induction chs with
    | nil => rfl
    | cons x l ih => simp [flatten_cons, ih]
  have := plain_writeChunks k chs (Plain.new t)
  rw [h] at this
  rw [← e]
  exact this.1

/-- C10: styling is invisible to `Plain`: on any stream whatsoever, two sequences of writes that differ
only in their styles behave identically (results, failures and final state). -/
theorem C10_styles_invisible {T : Type} [FmtWrite T] (chs chs' : List Chunk) (w : Plain T)
    (h : chs.map Prod.fst = chs'.map Prod.fst) : writeChunks chs w = writeChunks chs' w := by
  induction chs generalizing chs' w with
  | nil =>
    cases chs' with
    | nil => rfl
    | cons y l => simp at h
  | cons x l ih =>
    cases chs' with
    | nil => simp at h
    | cons y m =>
      simp only [List.map_cons, List.cons.injEq] at h
      rw [writeChunks_cons, writeChunks_cons]
      have e : Write.writeStr x.1 x.2 w = Write.writeStr y.1 y.2 w := by
        rw [← h.1]; rfl
      rw [e]
      rcases Write.writeStr y.1 y.2 w with ⟨r, w'⟩
      cases r <;> simp [ih _ _ h.2]

example : writes sampleProg Style.default FormatterArgs.default =
    ([(['a'], Style.default), (['b'], ⟨.Red, .Default, .Bold⟩), (['c'], Style.default)], .ok ()) ∧
    plainFormat ⟨sampleProg⟩ = .ok ['a', 'b', 'c'] := ⟨rfl, rfl⟩

/-! ## C11, C13 -/

/-- C11, C13: after any sequence of styled writes into a new `stylish::String`, displaying the string
through a formatter with any style and options writes exactly those characters, in order, each with the
style it was written with, and returns `Ok` (in particular no slice panics). -/
theorem C11_string_remembers (history : List Chunk) (style : Style) (args : FormatterArgs) :
    ∃ s : StyString, writeChunks history StyString.new = (.ok (), s) ∧
      ∃ log, writes (Display.fmt s) style args = (log, .ok ()) ∧ flatten log = flatten history := by
  obtain ⟨segs, h1, h2, -⟩ := StyString.writeChunks_ofSegs history [] trivial
  exact ⟨_, h1, segs, StyString.display_ofSegs segs style args, by simpa using h2⟩

/-- C11: the same on any writer that accepts everything: the display returns `Ok`, and the writer has
been given the characters of the history. -/
theorem C11_string_displays {W : Type} [Write W] (hW : Accepting W) (history : List Chunk)
    (style : Style) (args : FormatterArgs) (w : W) :
    ∃ log, flatten log = flatten history ∧
      (Display.fmt (writeChunks history StyString.new).2).run ⟨style, args, w⟩ =
        (.ok (), ⟨style, args, (writeChunks log w).2⟩) := by
  obtain ⟨s, hs, log, h1, h2⟩ := C11_string_remembers history style args
  refine ⟨log, h2, ?_⟩
  rw [hs, Disp.run_accepting hW, h1]

/-- The offset `n` splits the string at a character boundary. -/
def IsBoundary (string : Str) (n : Nat) : Prop :=
  ∃ pre post, string = pre ++ post ∧ n = strLen pre

/-- C11: the recorded offsets are character boundaries inside the string, in increasing order, the first
one is 0; every text was stored; and neighbouring runs have different styles. -/
theorem C11_offsets (history : List Chunk) :
    let s := (writeChunks history StyString.new).2
    s.string = text (flatten history) ∧
    (∀ p ∈ s.styles, IsBoundary s.string p.1) ∧
    s.styles.Pairwise (fun p q => p.1 ≤ q.1) ∧
    (∀ p, s.styles.head? = some p → p.1 = 0) ∧
    (history ≠ [] → s.styles ≠ []) ∧
    (∀ i p q, s.styles[i]? = some p → s.styles[i + 1]? = some q → p.2 ≠ q.2) := by
  obtain ⟨segs, h1, h2, h3⟩ := StyString.writeChunks_ofSegs history [] trivial
  have h1' : writeChunks history StyString.new = (.ok (), StyString.ofSegs segs) := h1
  rw [h1']
  have htext : ∀ l : List Chunk, text (flatten l) = StyString.segText l := by
    intro l
    induction l with
    | nil => rfl
    | cons x l ih => simp [flatten_cons, ih, StyString.segText]
  have hmem : ∀ (l : List Chunk) (pre : Str), ∀ p ∈ StyString.offsets (strLen pre) l,
      IsBoundary (pre ++ StyString.segText l) p.1 ∧ strLen pre ≤ p.1 := by
    intro l
    induction l with
    | nil => intro pre p hp; simp [StyString.offsets] at hp
    | cons x l ih =>
      intro pre p hp
      obtain ⟨s, st⟩ := x
      simp only [StyString.offsets, List.mem_cons] at hp
      rcases hp with rfl | hp
      · exact ⟨⟨pre, _, rfl, rfl⟩, Nat.le_refl _⟩
      · rw [← strLen_append] at hp
        have := ih (pre ++ s) p hp
        refine ⟨by simpa using this.1, ?_⟩
        have := this.2
        simp at this
        omega
  refine ⟨?_, ?_, ?_, ?_, ?_, ?_⟩
  · show StyString.segText segs = _
    rw [← htext, h2]; simp
  · intro p hp
    exact (hmem segs [] p hp).1
  · have : ∀ (l : List Chunk) (pre : Str),
        (StyString.offsets (strLen pre) l).Pairwise (fun p q => p.1 ≤ q.1) := by
      intro l
      induction l with
      | nil => intro pre; exact List.Pairwise.nil
      | cons x l ih =>
        intro pre
        obtain ⟨s, st⟩ := x
        simp only [StyString.offsets, List.pairwise_cons]
        rw [← strLen_append]
        refine ⟨fun q hq => ?_, ih _⟩
        have := (hmem l (pre ++ s) q hq).2
        simp at this
        omega
    exact this segs []
  · intro p hp
    cases segs with
    | nil => simp [StyString.ofSegs, StyString.offsets] at hp
    | cons x l =>
      obtain ⟨s, st⟩ := x
      simp [StyString.ofSegs, StyString.offsets] at hp
      rw [← hp]
  · intro hne
    cases history with
    | nil => exact absurd rfl hne
    | cons ch chs =>
      have hpush : ∀ (l : List Chunk) (s : Str) (st : Style), StyString.push l s st ≠ [] := by
        intro l s st
        unfold StyString.push
        split
        · simp
        · split <;> simp
      have hgrow : ∀ (chs l : List Chunk), l ≠ [] →
          ∃ l', l' ≠ [] ∧ writeChunks chs (StyString.ofSegs l) = (.ok (), StyString.ofSegs l') := by
        intro chs
        induction chs with
        | nil => intro l hl; exact ⟨l, hl, rfl⟩
        | cons c chs ih =>
          intro l hl
          obtain ⟨l', hl', he⟩ := ih (StyString.push l c.1 c.2) (hpush _ _ _)
          have h0 : Write.writeStr c.1 c.2 (StyString.ofSegs l) =
              (.ok (), StyString.ofSegs (StyString.push l c.1 c.2)) := StyString.writeStr_push _ _ _
          exact ⟨l', hl', by rw [writeChunks_cons, h0]; exact he⟩
      obtain ⟨l', hl', he⟩ := hgrow chs (StyString.push [] ch.1 ch.2) (hpush _ _ _)
      have h0 : Write.writeStr ch.1 ch.2 (StyString.ofSegs []) =
          (.ok (), StyString.ofSegs (StyString.push [] ch.1 ch.2)) := StyString.writeStr_push _ _ _
      have h4 : writeChunks (ch :: chs) (StyString.ofSegs []) = (.ok (), StyString.ofSegs l') := by
        rw [writeChunks_cons, h0]; exact he
      rw [h1] at h4
      have e := (Prod.mk.inj h4).2
      show (StyString.ofSegs segs).styles ≠ []
      rw [e]
      cases l' with
      | nil => exact absurd rfl hl'
      | cons y m => obtain ⟨s, st⟩ := y; simp [StyString.ofSegs, StyString.offsets]
  · intro i p q hp hq
    have hst : ∀ (l : List Chunk) (n i : Nat), (StyString.offsets n l)[i]?.map Prod.snd =
        l[i]?.map Prod.snd := by
      intro l
      induction l with
      | nil => intro n i; rfl
      | cons x l ih =>
        intro n i
        obtain ⟨s, st⟩ := x
        cases i with
        | zero => rfl
        | succ i => simpa [StyString.offsets] using ih _ i
    have halt : ∀ (l : List Chunk), StyString.Alternating l → ∀ i a b,
        l[i]? = some a → l[i + 1]? = some b → a.2 ≠ b.2 := by
      intro l
      induction l with
      | nil => intro _ i a b ha; simp at ha
      | cons x l ih =>
        intro hl i a b ha hb
        cases l with
        | nil => simp at hb
        | cons y l =>
          cases i with
          | zero =>
            simp at ha hb
            subst ha; subst hb
            exact hl.1
          | succ i => exact ih hl.2 i a b (by simpa using ha) (by simpa using hb)
    have e1 := hst segs 0 i
    have e2 := hst segs 0 (i + 1)
    have hp' : (StyString.offsets 0 segs)[i]? = some p := hp
    have hq' : (StyString.offsets 0 segs)[i + 1]? = some q := hq
    rw [hp'] at e1
    rw [hq'] at e2
    cases ha : segs[i]? with
    | none => rw [ha] at e1; simp at e1
    | some a =>
      cases hb : segs[i + 1]? with
      | none => rw [hb] at e2; simp at e2
      | some b =>
        rw [ha] at e1; rw [hb] at e2
        simp at e1 e2
        rw [e1, e2]
        exact halt segs h3 i a b ha hb

/-- C13: the style and options of the formatter an attributed string is displayed through make no
difference at all, on any writer, failing or not. -/
theorem C13_string_absolute {W : Type} [Write W] (history : List Chunk)
    (style style' : Style) (args args' : FormatterArgs) (w : W) :
    let s := (writeChunks history StyString.new).2
    ((Display.fmt s).run ⟨style, args, w⟩).1 = ((Display.fmt s).run ⟨style', args', w⟩).1 ∧
    ((Display.fmt s).run ⟨style, args, w⟩).2.write = ((Display.fmt s).run ⟨style', args', w⟩).2.write := by
  obtain ⟨segs, h1, -, -⟩ := StyString.writeChunks_ofSegs history [] trivial
  have h1' : writeChunks history StyString.new = (.ok (), StyString.ofSegs segs) := h1
  rw [h1']
  have hp : Propagates (Display.fmt (StyString.ofSegs segs)) := StyString.propagates_fmtFrom _ _
  have a1 := Disp.run_propagates _ hp style args w
  have a2 := Disp.run_propagates _ hp style' args' w
  rw [StyString.display_ofSegs] at a1 a2
  rw [← a2] at a1
  exact Prod.mk.inj a1

private theorem push_cons (y z : Chunk) (l : List Chunk) (s : Str) (st : Style) :
    StyString.push (y :: z :: l) s st = y :: StyString.push (z :: l) s st := by
  unfold StyString.push
  rw [List.getLast?_cons_cons]
  split
  · next h => simp at h
  · next h => split <;> simp

private theorem mergeWrites_snoc (l : List Chunk) (s : Str) (st : Style) :
    mergeWrites (l ++ [(s, st)]) = StyString.push (mergeWrites l) s st := by
  induction l with
  | nil => rfl
  | cons x l ih =>
    obtain ⟨v, sv⟩ := x
    rw [List.cons_append]
    unfold mergeWrites
    rw [ih]
    rcases hm : mergeWrites l with _ | ⟨⟨u, su⟩, more⟩
    · simp only [StyString.push, List.getLast?_nil, List.getLast?_singleton, List.dropLast_singleton,
        List.nil_append]
      by_cases h : sv = st
      · subst h; simp
      · simp [h, Ne.symm h]
    · cases more with
      | nil =>
        simp only [StyString.push, List.getLast?_singleton, List.dropLast_singleton, List.nil_append]
        by_cases h : st = su
        · subst h
          by_cases h' : sv = st
          · subst h'; simp
          · simp [h']
        · by_cases h' : sv = su
          · subst h'; simp [h]
          · simp [h, h']
      | cons z m =>
        rw [push_cons]
        by_cases h' : sv = su
        · subst h'; simp [push_cons]
        · simp [h', push_cons]

theorem string_of_history (history : List Chunk) :
    writeChunks history StyString.new = (.ok (), StyString.ofSegs (mergeWrites history)) := by
  have key : ∀ done rest : List Chunk, writeChunks rest (StyString.ofSegs (mergeWrites done)) =
      (.ok (), StyString.ofSegs (mergeWrites (done ++ rest))) := by
    intro done rest
    induction rest generalizing done with
    | nil => simp
    | cons ch rest ih =>
      have h0 : Write.writeStr ch.1 ch.2 (StyString.ofSegs (mergeWrites done)) =
          (.ok (), StyString.ofSegs (mergeWrites (done ++ [ch]))) := by
        rw [show ch = (ch.1, ch.2) from rfl, mergeWrites_snoc]
        exact StyString.writeStr_push _ _ _
      rw [writeChunks_cons, h0]
      have := ih (done ++ [ch])
      simpa using this
  exact key [] history

/-- C11: what exactly is written when an attributed string is displayed: the writes of its history, those next to
each other in the same style put together into one (so at most as many as were made), on any writer, failing or not. -/
theorem C11_runs {W : Type} [Write W] (history : List Chunk) (style : Style) (args : FormatterArgs) (w : W) :
    (Display.fmt (writeChunks history StyString.new).2).run ⟨style, args, w⟩ =
      ((writeChunks (mergeWrites history) w).1, ⟨style, args, (writeChunks (mergeWrites history) w).2⟩) ∧
    (mergeWrites history).length ≤ history.length := by
  constructor
  · rw [string_of_history]
    have hp : Propagates (Display.fmt (StyString.ofSegs (mergeWrites history))) := StyString.propagates_fmtFrom _ _
    have h := Disp.run_propagates _ hp style args w
    rw [StyString.display_ofSegs] at h
    rw [Disp.run_eta]
    rcases hc : writeChunks (mergeWrites history) w with ⟨r, w'⟩
    rw [hc] at h
    cases r <;> simp only [afterChunks, Prod.mk.injEq] at h <;> simp [h.1, h.2]
  · induction history with
    | nil => exact Nat.le_refl _
    | cons x l ih =>
      obtain ⟨v, sv⟩ := x
      unfold mergeWrites
      rcases hm : mergeWrites l with _ | ⟨⟨u, su⟩, more⟩
      · simp
      · rw [hm] at ih
        simp only [List.length_cons] at ih ⊢
        split <;> simp only [List.length_cons] <;> omega

/-- The example history: multi-byte text, an empty write, a repeated style. -/
def sampleHistory : List Chunk :=
  [(['é', '€'], ⟨.Red, .Default, .Normal⟩), ([], Style.default),
   (['🦀'], ⟨.Red, .Default, .Normal⟩), (['x'], ⟨.Red, .Default, .Normal⟩)]

example : (writeChunks sampleHistory StyString.new).2 =
    ⟨['é', '€', '🦀', 'x'], [(0, ⟨.Red, .Default, .Normal⟩), (5, Style.default),
      (5, ⟨.Red, .Default, .Normal⟩)]⟩ := by decide

example : mergeWrites sampleHistory = [(['é', '€'], ⟨.Red, .Default, .Normal⟩), ([], Style.default),
    (['🦀', 'x'], ⟨.Red, .Default, .Normal⟩)] := by decide

/-! ## C12 -/

/-- C12: rendering through an attributed string gives the same output in all three backends. -/
theorem C12_via_string (args : Arguments) (s : StyString) (h : coreFormat args = .ok s) :
    ansiFormat ⟨Display.fmt s⟩ = ansiFormat args ∧
    htmlFormat ⟨Display.fmt s⟩ = htmlFormat args ∧
    plainFormat ⟨Display.fmt s⟩ = plainFormat args := by
  obtain ⟨segs, h1, h2, -⟩ := coreFormat_eq args
  rw [h] at h1
  rcases hout : (denote args).2 with u | u | _ | _
  · rw [hout] at h1
    simp only [formatOutcome, Res.ok.injEq] at h1
    subst h1
    have hden : denote ⟨Display.fmt (StyString.ofSegs segs)⟩ = (segs, .ok ()) :=
      StyString.display_ofSegs segs _ _
    rw [ansiFormat_eq, htmlFormat_eq, plainFormat_eq, ansiFormat_eq, htmlFormat_eq, plainFormat_eq,
      hden, hout, h2]
    exact ⟨rfl, rfl, rfl⟩
  · rw [hout] at h1; simp [formatOutcome] at h1
  · rw [hout] at h1; simp [formatOutcome] at h1
  · rw [hout] at h1; simp [formatOutcome] at h1

/-- C12: and formatting an attributed string into an attributed string again gives the same string. -/
theorem C12_string_again (args : Arguments) (s s' : StyString) (h : coreFormat args = .ok s)
    (h' : coreFormat ⟨Display.fmt s⟩ = .ok s') : s' = s := by
  obtain ⟨segs, h1, h2, h3⟩ := coreFormat_eq args
  rw [h] at h1
  rcases hout : (denote args).2 with u | u | _ | _
  · rw [hout] at h1
    simp only [formatOutcome, Res.ok.injEq] at h1
    subst h1
    have hden : denote ⟨Display.fmt (StyString.ofSegs segs)⟩ = (segs, .ok ()) :=
      StyString.display_ofSegs segs _ _
    unfold coreFormat at h'
    rw [Write.writeFmt_accepting StyString.accepting, hden] at h'
    have key : ∀ (done l : List Chunk), StyString.Alternating (done ++ l) →
        writeChunks l (StyString.ofSegs done) = (.ok (), StyString.ofSegs (done ++ l)) := by
      intro done l
      induction l generalizing done with
      | nil => intro _; simp
      | cons x l ih =>
        intro hl
        have hpush : StyString.push done x.1 x.2 = done ++ [x] := by
          unfold StyString.push
          rcases hd : done.getLast? with _ | ⟨u, st⟩
          · have : done = [] := by simpa using hd
            subst this; rfl
          · have hx : st ≠ x.2 := by
              rw [getLast?_split hd] at hl
              have : ∀ (m : List Chunk), StyString.Alternating (m ++ [(u, st)] ++ x :: l) → st ≠ x.2 := by
                intro m
                induction m with
                | nil => intro hm; exact hm.1
                | cons y m ihm =>
                  intro hm
                  apply ihm
                  cases m with
                  | nil => exact hm.2
                  | cons z m => exact hm.2
              exact this _ hl
            have hx' : ¬ x.2 = st := fun e => hx e.symm
            simp only [if_neg hx']
        have h0 : Write.writeStr x.1 x.2 (StyString.ofSegs done) =
            (.ok (), StyString.ofSegs (StyString.push done x.1 x.2)) := StyString.writeStr_push _ _ _
        rw [writeChunks_cons, h0, hpush]
        have := ih (done ++ [x]) (by simpa using hl)
        simpa using this
    have hk := key [] segs (by simpa using h3)
    have hk' : writeChunks segs StyString.new = (.ok (), StyString.ofSegs segs) := hk
    rw [hk'] at h'
    simpa [expectState] using h'.symm
  · rw [hout] at h1; simp [formatOutcome] at h1
  · rw [hout] at h1; simp [formatOutcome] at h1
  · rw [hout] at h1; simp [formatOutcome] at h1

example : ∃ s, coreFormat ⟨sampleProg⟩ = .ok s ∧
    ansiFormat ⟨Display.fmt s⟩ = .ok (str "a\x1b[31;1mb\x1b[0mc") := ⟨_, rfl, rfl⟩

/-! ## C43 -/

/-- C43: the four `format` functions return normally exactly when the Display program returns `Ok`;
otherwise (it returned an error or panicked) they panic. -/
theorem C43_format_panics_iff (args : Arguments) :
    let outcome := (writes args.f Style.default FormatterArgs.default).2
    (outcome = .ok () → (∃ s, coreFormat args = .ok s) ∧ (∃ s, plainFormat args = .ok s) ∧
      (∃ s, ansiFormat args = .ok s) ∧ (∃ s, htmlFormat args = .ok s)) ∧
    (outcome ≠ .ok () → coreFormat args = .panic ∧ plainFormat args = .panic ∧
      ansiFormat args = .panic ∧ htmlFormat args = .panic) := by
  obtain ⟨segs, h1, -, -⟩ := coreFormat_eq args
  simp only [plainFormat_eq, ansiFormat_eq, htmlFormat_eq, h1]
  show ((denote args).2 = _ → _) ∧ ((denote args).2 ≠ _ → _)
  rcases (denote args).2 with u | u | _ | _ <;> simp [formatOutcome]

example : ansiFormat ⟨.writeStr ['a'] (fun _ => .done .err)⟩ = .panic ∧
    (∃ s, ansiFormat ⟨sampleProg⟩ = .ok s) := ⟨rfl, _, rfl⟩

end Stylish.Props
