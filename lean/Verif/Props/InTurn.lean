import Verif.Spec.InTurn
import Verif.Model.Alias
import Verif.Props.CarryOn
import Verif.Props.Accumulate
/-
C101: a document written call by call is one `format!`.
-/

namespace Stylish.Props

open Nom Format Spec Spec.Syntax

/-- The piece `{:s}`. -/
private def selfPiece : PieceSyn := .arg none (some { ty := .stylish })

private def selfPieces (n : Nat) : List PieceSyn := List.replicate n selfPiece

private theorem selfPieces_print (calls : List Arguments) : print (selfPieces calls.length) = allShown calls := by
  have h1 : selfPiece.print = str "{:s}" := by decide +kernel
  induction calls with
  | nil => rfl
  | cons x xs ih =>
    have e : print (selfPieces (x :: xs).length) = selfPiece.print ++ print (selfPieces xs.length) := rfl
    rw [e, h1, ih]
    rfl

private theorem bareCount_self (n : Nat) : bareCount (selfPieces n) = n := by
  induction n with
  | zero => rfl
  | succ n ih =>
    have : bareCount (selfPieces (n + 1)) = bareCount (selfPieces n) + 1 := by
      simp only [selfPieces, List.replicate_succ, bareCount]
      rw [List.countP_cons]
      rfl
    rw [this, ih]

private theorem selfPieces_split (n : Nat) (before after : List PieceSyn) (p : PieceSyn)
    (h : selfPieces n = before ++ p :: after) : p = selfPiece ∧ bareCount before = before.length ∧ before.length < n := by
  have hl : n = before.length + (after.length + 1) := by
    have := congrArg List.length h
    simpa [selfPieces] using this
  have hp : p ∈ selfPieces n := by rw [h]; simp
  have hb : before = selfPieces before.length := by
    refine List.eq_replicate_of_mem fun q hq => ?_
    have : q ∈ selfPieces n := by rw [h]; simp [hq]
    exact (List.mem_replicate.1 this).2
  refine ⟨(List.mem_replicate.1 hp).2, ?_, by omega⟩
  rw [hb, bareCount_self, selfPieces, List.length_replicate]

private theorem positionals_asArgs (calls : List Arguments) :
    positionals (asArgs calls) = calls.map (fun x => ⟨fun _ _ => .done .ok, Display.fmt x⟩) := by
  induction calls with
  | nil => rfl
  | cons x xs ih => exact congrArg _ ih

private theorem nameds_asArgs (calls : List Arguments) : nameds (asArgs calls) = [] := by
  induction calls with
  | nil => rfl
  | cons x xs ih => exact ih

/-- What the calls write in the end: one after the other, up to the first that does not return `Ok`. -/
def together : List Arguments → List Chunk × Res FmtError Unit
  | [] => ([], .ok ())
  | x :: xs =>
    match denote x with
    | (l, .ok ()) => (l ++ (together xs).1, (together xs).2)
    | (l, r) => (l, r)

private theorem tree_together (calls : List Arguments) (scope : Str → ArgVal) : ∀ pre suf, calls = pre ++ suf →
    treeOutput (asArgs calls) scope Style.default (selfPieces pre.length) (selfPieces suf.length) = together suf := by
  intro pre suf
  induction suf generalizing pre with
  | nil => intro _; rfl
  | cons x xs ih =>
    intro h
    have e1 : pieceOutput (asArgs calls) scope (selfPieces pre.length) Style.default selfPiece = denote x := by
      have hv : valueFor (asArgs calls) scope (selfPieces pre.length) none =
          some ⟨fun _ _ => .done .ok, Display.fmt x⟩ := by
        show (positionals (asArgs calls))[bareCount (selfPieces pre.length)]? = _
        rw [positionals_asArgs, bareCount_self, h]
        simp
      unfold selfPiece
      simp only [pieceOutput, hv]
      rfl
    have e2 : selfPieces pre.length ++ [selfPiece] = selfPieces (pre ++ [x]).length := by
      simp [selfPieces, List.replicate_succ']
    show treeOutput (asArgs calls) scope Style.default (selfPieces pre.length) (selfPiece :: selfPieces xs.length) = _
    have ih' := ih (pre ++ [x]) (by rw [h]; simp)
    simp only [treeOutput, e1, e2, ih', together]
    rcases denote x with ⟨l, _ | _ | _ | _⟩ <;> rfl

/-- `format_args!("{:s}{:s}..", first, second, ..)` compiles and writes what the calls write in turn. -/
theorem together_formatArgs {E : Env} (hE : E.Lawful) (calls : List Arguments) (scope : Str → ArgVal) :
    ∃ y, formatArgs E (allShown calls) (asArgs calls) scope = .ok y ∧ denote y = together calls := by
  have hd : Documented E (selfPieces calls.length) := by
    refine ⟨?_, ?_⟩
    · intro p hp
      rw [(List.mem_replicate.1 hp).2]
      simp [selfPiece, PieceSyn.Documented, SpecSyn.Documented]
    · induction calls.length with
      | zero => trivial
      | succ n ih => cases n <;> first | trivial | exact ih
  have hs : Supported E (selfPieces calls.length) := by
    refine ⟨?_, ?_⟩
    · intro p hp
      rw [(List.mem_replicate.1 hp).2]
      simp [selfPiece, PieceSyn.Supported, SpecSyn.Supported]
    · induction calls.length with
      | zero => trivial
      | succ n ih => exact ⟨by simp [selfPiece, PieceSyn.emptySpec, SpecSyn.print, Ty.print], ih⟩
  have hr : RefsOk (asArgs calls) (selfPieces calls.length) := by
    intro before ref spec after h
    obtain ⟨h1, h2, h3⟩ := selfPieces_split _ _ _ _ h
    obtain ⟨rfl, rfl⟩ := PieceSyn.arg.inj h1
    exact ⟨by simp only [RefExists, h2, positionals_asArgs]; simpa using h3, ⟨by simp [specOf], by simp [specOf]⟩⟩
  have hu : AllUsed (asArgs calls) (selfPieces calls.length) := by
    refine ⟨fun i hi => ?_, by simp [nameds_asArgs]⟩
    rw [positionals_asArgs, List.length_map] at hi
    refine ⟨selfPieces i, none, some { ty := .stylish }, selfPieces (calls.length - i - 1), ?_, Or.inl ⟨rfl, (bareCount_self i).symm⟩⟩
    show selfPieces calls.length = selfPieces i ++ selfPiece :: selfPieces (calls.length - i - 1)
    rw [show selfPiece :: selfPieces (calls.length - i - 1) = selfPieces (calls.length - i - 1 + 1) from rfl]
    simp only [selfPieces]
    rw [List.replicate_append_replicate]
    congr 1
    omega
  have hpf : PositionalFirst (asArgs calls) :=
    ⟨calls.map fun x => ⟨fun _ _ => .done .ok, Display.fmt x⟩, [], by simp [asArgs]⟩
  rcases formatArgs_tree hE (asArgs calls) scope _ hd hs with ⟨-, e⟩ | ⟨h, -⟩
  · rw [selfPieces_print] at e
    refine ⟨_, e, ?_⟩
    have h1 := (C46_end_to_end hE _ _ scope _ e).2 _ ⟨selfPieces_print calls, hd, hs⟩ Style.default FormatterArgs.default
    exact h1.trans (tree_together calls scope [] calls rfl)
  · exact absurd ⟨hpf, hr, hu⟩ h

theorem inTurn_together {W : Type} [Write W] (hW : Accepting W) (calls : List Arguments) (w : W) :
    inTurn calls w = ((together calls).2, (writeChunks (together calls).1 w).2) := by
  induction calls generalizing w with
  | nil => rfl
  | cons x xs ih =>
    rw [inTurn, Act.bind_apply, Write.writeFmt_accepting hW x w]
    have hc : writeChunks (denote x).1 w = (.ok (), (writeChunks (denote x).1 w).2) :=
      Prod.ext (by rw [Accepting.writeChunks hW]) rfl
    rcases hd : denote x with ⟨l, r⟩
    rw [hd] at hc
    cases r with
    | ok u =>
      simp only [together, hd]
      rw [ih, writeChunks_append, hc]
    | err e => simp only [together, hd]
    | panic => simp only [together, hd]
    | diverge => simp only [together, hd]

theorem together_ok (calls : List Arguments) (h : (together calls).2 = .ok ()) :
    (∀ x ∈ calls, endOf x = .ok ()) ∧ (together calls).1 = calls.flatMap textOf := by
  induction calls with
  | nil => exact ⟨by simp, rfl⟩
  | cons x xs ih =>
    rcases hd : denote x with ⟨l, r⟩
    cases r with
    | ok u =>
      simp only [together, hd] at h ⊢
      obtain ⟨h1, h2⟩ := ih h
      have e1 : endOf x = .ok () := congrArg Prod.snd hd
      have e2 : textOf x = l := congrArg Prod.fst hd
      refine ⟨?_, by rw [h2, List.flatMap_cons, e2]⟩
      intro y hy
      rcases List.mem_cons.1 hy with rfl | hy
      · exact e1
      · exact h1 y hy
    | err e => simp [together, hd] at h
    | panic => simp [together, hd] at h
    | diverge => simp [together, hd] at h

section
variable {T : Type} [FmtWrite T] {E : Env} (hE : E.Lawful) (scope : Str → ArgVal) (calls : List Arguments)
include hE

/-- C101, HTML: what several calls of `write!` on `stylish::html(stream)`, and `finish`, add to the stream is what
`stylish::html::format!("{:s}{:s}..", format_args!(..), format_args!(..), ..)` returns; if one of them returns an error,
then and only then does the `format!` panic. -/
theorem C101_html (k : FmtSink T) (hT : AcceptingSink T) (t : T) :
    ∃ y, formatArgs E (allShown calls) (asArgs calls) scope = .ok y ∧
      (htmlFormat y = .panic ↔ (inTurn calls (html t)).1 ≠ .ok ()) ∧
      ∀ s, htmlFormat y = .ok s ↔ ∃ w b, inTurn calls (html t) = (.ok (), w) ∧ Html.finish w = (.ok (), b) ∧
        k.delivered b.inner = k.delivered t ++ s := by
  obtain ⟨y, hy, hd⟩ := together_formatArgs hE calls scope
  have e : inTurn calls (html t) = _ := inTurn_together (Html.accepting hT) calls (html t)
  obtain ⟨a, b, h1, h2, h3⟩ := (htmlFinished_exists k hT t (together calls).1).2
  have h1' : writeChunks (together calls).1 (html t) = (.ok (), a) := h1
  rw [h1'] at e
  refine ⟨y, hy, ?_, fun s => ?_⟩
  · rw [htmlFormat_eq, hd, e]
    rcases (together calls).2 with u | x | _ | _ <;> simp [formatOutcome]
  · rw [htmlFormat_eq, hd, e]
    rcases (together calls).2 with u | x | _ | _
    · constructor
      · intro h
        have : htmlRender (flatten (together calls).1) = s := by simpa [formatOutcome] using h
        exact ⟨a, b, rfl, h2, by rw [h3, this]⟩
      · rintro ⟨w, c, g1, g2, g3⟩
        obtain ⟨-, rfl⟩ := Prod.mk.inj g1
        rw [h2] at g2
        obtain ⟨-, rfl⟩ := Prod.mk.inj g2
        rw [h3] at g3
        simp [formatOutcome, List.append_cancel_left g3]
    all_goals
      constructor
      · intro h; simp [formatOutcome] at h
      · rintro ⟨w, c, g1, -⟩; exact absurd (Prod.mk.inj g1).1 (by simp)

/-- C101, ANSI. -/
theorem C101_ansi (k : FmtSink T) (hT : AcceptingSink T) (t : T) :
    ∃ y, formatArgs E (allShown calls) (asArgs calls) scope = .ok y ∧
      (ansiFormat y = .panic ↔ (inTurn calls (ansi t)).1 ≠ .ok ()) ∧
      ∀ s, ansiFormat y = .ok s ↔ ∃ w b, inTurn calls (ansi t) = (.ok (), w) ∧ Ansi.finish w = (.ok (), b) ∧
        k.delivered b.inner = k.delivered t ++ s := by
  obtain ⟨y, hy, hd⟩ := together_formatArgs hE calls scope
  have e : inTurn calls (ansi t) = _ := inTurn_together (Ansi.accepting hT) calls (ansi t)
  obtain ⟨a, b, h1, h2, h3⟩ := (ansiFinished_exists k hT t (together calls).1).2
  have h1' : writeChunks (together calls).1 (ansi t) = (.ok (), a) := h1
  rw [h1'] at e
  refine ⟨y, hy, ?_, fun s => ?_⟩
  · rw [ansiFormat_eq, hd, e]
    rcases (together calls).2 with u | x | _ | _ <;> simp [formatOutcome]
  · rw [ansiFormat_eq, hd, e]
    rcases (together calls).2 with u | x | _ | _
    · constructor
      · intro h
        have : ansiRender (flatten (together calls).1) = s := by simpa [formatOutcome] using h
        exact ⟨a, b, rfl, h2, by rw [h3, this]⟩
      · rintro ⟨w, c, g1, g2, g3⟩
        obtain ⟨-, rfl⟩ := Prod.mk.inj g1
        rw [h2] at g2
        obtain ⟨-, rfl⟩ := Prod.mk.inj g2
        rw [h3] at g3
        simp [formatOutcome, List.append_cancel_left g3]
    all_goals
      constructor
      · intro h; simp [formatOutcome] at h
      · rintro ⟨w, c, g1, -⟩; exact absurd (Prod.mk.inj g1).1 (by simp)

/-- C101, plain text. -/
theorem C101_plain (k : FmtSink T) (hT : AcceptingSink T) (t : T) :
    ∃ y, formatArgs E (allShown calls) (asArgs calls) scope = .ok y ∧
      (plainFormat y = .panic ↔ (inTurn calls (plain t)).1 ≠ .ok ()) ∧
      ∀ s, plainFormat y = .ok s ↔ ∃ w, inTurn calls (plain t) = (.ok (), w) ∧
        k.delivered (Plain.intoInner w) = k.delivered t ++ s := by
  obtain ⟨y, hy, hd⟩ := together_formatArgs hE calls scope
  have hacc := plain_accepting hT
  have e : inTurn calls (plain t) = _ := inTurn_together hacc calls (plain t)
  have h3 := C10_plain_writes k (together calls).1 t _ (hacc.writeChunks (together calls).1 (Plain.new t))
  rw [← text_chunks] at h3
  obtain ⟨v, hw⟩ : ∃ v, (writeChunks (together calls).1 (Plain.new t)).2 = v := ⟨_, rfl⟩
  have h3 : k.delivered v.intoInner = k.delivered t ++ text (flatten (together calls).1) := by rw [← hw]; exact h3
  have e : inTurn calls (plain t) = ((together calls).2, v) := by rw [e, ← hw]; rfl
  refine ⟨y, hy, ?_, fun s => ?_⟩
  · rw [plainFormat_eq, hd, e]
    rcases (together calls).2 with u | x | _ | _ <;> simp [formatOutcome]
  · rw [plainFormat_eq, hd, e]
    rcases (together calls).2 with u | x | _ | _
    · constructor
      · intro h
        have : text (flatten (together calls).1) = s := by simpa [formatOutcome] using h
        exact ⟨v, rfl, by rw [← this]; exact h3⟩
      · rintro ⟨w, g1, g3⟩
        obtain ⟨-, rfl⟩ := Prod.mk.inj g1
        have := List.append_cancel_left (h3.symm.trans g3)
        simp [formatOutcome, this]
    all_goals
      constructor
      · intro h; simp [formatOutcome] at h
      · rintro ⟨w, g1, -⟩; exact absurd (Prod.mk.inj g1).1 (by simp)

omit [FmtWrite T] in
/-- C101, an attributed `String`: the very same `String`. -/
theorem C101_string :
    ∃ y, formatArgs E (allShown calls) (asArgs calls) scope = .ok y ∧
      (coreFormat y = .panic ↔ (inTurn calls StyString.new).1 ≠ .ok ()) ∧
      ∀ s, coreFormat y = .ok s ↔ inTurn calls StyString.new = (.ok (), s) := by
  obtain ⟨y, hy, hd⟩ := together_formatArgs hE calls scope
  have e := inTurn_together StyString.accepting calls StyString.new
  have e2 : Write.writeFmt y StyString.new = inTurn calls StyString.new := by
    rw [Write.writeFmt_accepting StyString.accepting, hd, e]
  refine ⟨y, hy, ?_⟩
  unfold coreFormat
  rw [e2]
  have hne : (inTurn calls StyString.new).1 ≠ .diverge := by
    rw [e, ← hd]
    exact writes_ne_diverge y.f Style.default FormatterArgs.default
  generalize inTurn calls StyString.new = z at hne
  rcases z with ⟨u | x | _ | _, w⟩ <;> simp [expectState] at hne ⊢

end

private theorem inTurnIo_carryOn {W : Type} [IoWrite W] (calls : List Arguments) (w : W)
    (h : ∀ r ∈ (carryOnIo calls w).1, r = .ok ()) : inTurnIo calls w = (.ok (), (carryOnIo calls w).2) := by
  induction calls generalizing w with
  | nil => rfl
  | cons x xs ih =>
    rw [inTurnIo, Act.bind_apply]
    simp only [carryOnIo, List.mem_cons, forall_eq_or_imp] at h ⊢
    rcases hx : IoWrite.writeFmt x w with ⟨r, w'⟩
    rw [hx] at h
    obtain ⟨rfl, h2⟩ := h
    exact ih w' h2

section
variable {T : Type} [StdIoWrite T] {E : Env} (hE : E.Lawful) (scope : Str → ArgVal) (calls : List Arguments)
include hE

/-- C101, ANSI to a byte stream: the bytes are those of the `String` that `format!` returns. -/
theorem C101_io_ansi (k : IoSink T) (hn : ReliableStream T) (hf : KeepsGoing T) (t : T) :
    ∃ y, formatArgs E (allShown calls) (asArgs calls) scope = .ok y ∧ ∀ s, ansiFormat y = .ok s →
      ∃ enough, ∀ fuel, enough ≤ fuel → ∃ w b, inTurnIo calls (ioAnsi fuel t) = (.ok (), w) ∧
        IoAnsi.finish w = (.ok (), b) ∧ k.delivered b.inner = k.delivered t ++ utf8 s := by
  obtain ⟨y, hy, hd⟩ := together_formatArgs hE calls scope
  refine ⟨y, hy, fun s hs => ?_⟩
  obtain ⟨enough, h⟩ := C85_io_ansi k hn hf calls t
  refine ⟨enough, fun fuel hle => ?_⟩
  obtain ⟨b, out, h1, h2, h3, h4⟩ := h fuel hle
  rw [ansiFormat_eq, hd] at hs
  have hok : (together calls).2 = .ok () := by
    rcases hr : (together calls).2 with u | x | _ | _
    · rfl
    all_goals rw [hr] at hs; simp [formatOutcome] at hs
  obtain ⟨g1, g2⟩ := together_ok calls hok
  rw [hok, g2] at hs
  have hs' : ansiRender (flatten (calls.flatMap textOf)) = s := by simpa [formatOutcome] using hs
  have h5 := ansiFinished_eq _ _ _ _ h4
  refine ⟨_, b, inTurnIo_carryOn calls _ ?_, h2, by rw [h3, h5, hs']⟩
  intro r hr
  have hr' : r ∈ calls.map (fun x => toldIo (endOf x)) := by rw [← h1]; exact hr
  obtain ⟨x, hx, rfl⟩ := List.mem_map.1 hr'
  rw [g1 x hx]
  rfl

/-- C101, plain text to a byte stream. -/
theorem C101_io_plain (k : IoSink T) (hn : ReliableStream T) (hf : KeepsGoing T) (t : T) :
    ∃ y, formatArgs E (allShown calls) (asArgs calls) scope = .ok y ∧ ∀ s, plainFormat y = .ok s →
      ∃ enough, ∀ fuel, enough ≤ fuel → ∃ w, inTurnIo calls (ioPlain fuel t) = (.ok (), w) ∧
        k.delivered (IoPlain.intoInner w) = k.delivered t ++ utf8 s := by
  obtain ⟨y, hy, hd⟩ := together_formatArgs hE calls scope
  refine ⟨y, hy, fun s hs => ?_⟩
  obtain ⟨enough, h⟩ := C85_io_plain k hn hf calls t
  refine ⟨enough, fun fuel hle => ?_⟩
  obtain ⟨h1, h3⟩ := h fuel hle
  rw [plainFormat_eq, hd] at hs
  have hok : (together calls).2 = .ok () := by
    rcases hr : (together calls).2 with u | x | _ | _
    · rfl
    all_goals rw [hr] at hs; simp [formatOutcome] at hs
  obtain ⟨g1, g2⟩ := together_ok calls hok
  rw [hok, g2] at hs
  have hs' : text (flatten (calls.flatMap textOf)) = s := by simpa [formatOutcome] using hs
  refine ⟨_, inTurnIo_carryOn calls _ ?_, h3.trans (by rw [← hs', text_chunks])⟩
  intro r hr
  have hr' : r ∈ calls.map (fun x => toldIo (endOf x)) := by rw [← h1]; exact hr
  obtain ⟨x, hx, rfl⟩ := List.mem_map.1 hr'
  rw [g1 x hx]
  rfl

end

/-- Non-vacuity: a bold `a`, then a red `<` in bold, in two calls, and the same in one `format!`; and a call that fails. -/
def twoCalls : List Arguments :=
  [⟨.within (.of Intensity.Bold) (.writeStr ['a'] fun r => .done r) fun r => .done r⟩,
    ⟨.within (.of Intensity.Bold) (.within (.of (Foreground.mk .Red)) (.writeStr ['<'] fun r => .done r) fun r => .done r)
      fun r => .done r⟩]

example :
    (let x := (do inTurn twoCalls; Html.finish : Act (Html StdString) FmtError Unit) (html StdString.new)
     x.1 = .ok () ∧ x.2.inner.chars =
       str "<span style=font-weight:bolder>a</span><span style=color:red;font-weight:bolder>&lt;</span>" ∧
     (formatArgs asciiEnv (allShown twoCalls) (asArgs twoCalls) noScope).toOption.map htmlFormat =
       some (.ok (str "<span style=font-weight:bolder>a</span><span style=color:red;font-weight:bolder>&lt;</span>"))) ∧
    (inTurn (twoCalls ++ [⟨.done .err⟩]) (html StdString.new)).1 = .err () ∧
    (formatArgs asciiEnv (allShown (twoCalls ++ [⟨.done .err⟩])) (asArgs (twoCalls ++ [⟨.done .err⟩])) noScope).toOption.map
      htmlFormat = some .panic := by
  decide +kernel

end Stylish.Props
