import Verif.Spec.Call
import Verif.Props.MacroNl
/-
Properties of the tokens of macro calls: C48.
-/

namespace Stylish.Props

open Nom Format Spec Spec.Syntax

variable {Y : Type}

/-! ### Lemmas -/

theorem readsAs_classify (e : SynExpr Y) : ReadsAs (.expr e) (classify e) := by
  cases e with
  | path q l segs => exact .positional _ (by simp)
  | lit s => exact .positional _ (by simp)
  | other e => exact .positional _ (by simp)
  | assign left right =>
    have e : classify (.assign left right) = match namedIdent left with
      | some ident => .named ident right
      | none => .positional (.assign left right) := rfl
    rw [e]
    cases hn : namedIdent left with
    | none =>
      refine .positional _ ?_
      rintro q l name value h
      cases h
      simp [namedIdent] at hn
    | some ident =>
      unfold namedIdent at hn
      split at hn
      · rename_i q l seg
        split at hn
        · rename_i ha
          obtain ⟨id, na⟩ := seg
          simp only [Option.some.injEq] at hn
          subst hn
          have : na = true := ha
          subst this
          exact .named q l id right
        · simp at hn
      · simp at hn

theorem classify_of_readsAs {e : SynExpr Y} {a : MacroArg (SynExpr Y)} (h : ReadsAs (.expr e) a) :
    classify e = a := by
  have key := readsAs_classify e
  generalize classify e = b at key
  cases h with
  | named q l name value =>
    cases key with
    | named => rfl
    | positional _ hn => exact absurd rfl (hn q l name value)
  | positional _ hn =>
    cases key with
    | named q l name value => exact absurd rfl (hn q l name value)
    | positional => rfl

theorem argLoop_tokens (ps : List (Tok Y × MacroArg (SynExpr Y))) (hp : ∀ p ∈ ps, ReadsAs p.1 p.2)
    (trailing o : Bool) (pos : List (SynExpr Y)) (named : List (Str × SynExpr Y)) :
    argLoop o pos named (Spec.argTokens (ps.map Prod.fst) trailing) =
      laterPhase (splitArgs o pos named (ps.map Prod.snd)) := by
  induction ps generalizing o pos named with
  | nil => cases trailing <;> rfl
  | cons p ps ih =>
    obtain ⟨tok, a⟩ := p
    have ih := ih (fun q hq => hp q (by simp [hq]))
    have ha := hp (tok, a) (by simp)
    have ha : ReadsAs tok a := ha
    have e : Spec.argTokens (((tok, a) :: ps).map Prod.fst) trailing =
        .comma :: tok :: Spec.argTokens (ps.map Prod.fst) trailing := by
      simp [Spec.argTokens]
    rw [e]
    have key : ∀ ex : SynExpr Y, classify ex = a →
        parseExpr (tok :: Spec.argTokens (ps.map Prod.fst) trailing) =
          .ok (ex, Spec.argTokens (ps.map Prod.fst) trailing) →
        argLoop o pos named (.comma :: tok :: Spec.argTokens (ps.map Prod.fst) trailing) =
          laterPhase (splitArgs o pos named (a :: ps.map Prod.snd)) := by
      intro ex hc hx
      unfold argLoop
      rw [hx]
      simp only
      rw [hc]
      cases a with
      | named n v => simp only [splitArgs]; exact ih _ _ _
      | positional v =>
        simp only [splitArgs]
        cases o with
        | true => rfl
        | false => simpa using ih _ _ _
    have key' := fun ex h1 h2 => key ex h1 h2
    cases ha with
    | named q l name value => exact key' _ (classify_of_readsAs (.named q l name value)) rfl
    | literal s => exact key' (.lit s) rfl rfl
    | positional ex hn => exact key' _ (classify_of_readsAs (.positional ex hn)) rfl

theorem argLoop_ok (toks : List (Tok Y)) (o : Bool) (pos pos' : List (SynExpr Y))
    (named named' : List (Str × SynExpr Y)) (h : argLoop o pos named toks = .ok (pos', named')) :
    ∃ (ps : List (Tok Y × MacroArg (SynExpr Y))) (trailing : Bool), (∀ p ∈ ps, ReadsAs p.1 p.2) ∧
      toks = Spec.argTokens (ps.map Prod.fst) trailing := by
  induction hn : toks.length using Nat.strongRecOn generalizing toks o pos named with
  | _ n ih =>
    match toks, h with
    | [], _ => exact ⟨[], false, by simp, rfl⟩
    | [.comma], _ => exact ⟨[], true, by simp, rfl⟩
    | .comma :: tok :: rest, h =>
      unfold argLoop at h
      have key : ∀ ex : SynExpr Y, parseExpr (tok :: rest) = .ok (ex, rest) → ReadsAs tok (classify ex) →
          ∃ (ps : List (Tok Y × MacroArg (SynExpr Y))) (trailing : Bool),
            (∀ p ∈ ps, ReadsAs p.1 p.2) ∧
            .comma :: tok :: rest = Spec.argTokens (ps.map Prod.fst) trailing := by
        intro ex hx hr
        rw [hx] at h
        simp only at h
        have fin : (∃ (ps : List (Tok Y × MacroArg (SynExpr Y))) (trailing : Bool),
            (∀ p ∈ ps, ReadsAs p.1 p.2) ∧ rest = Spec.argTokens (ps.map Prod.fst) trailing) →
            ∃ (ps : List (Tok Y × MacroArg (SynExpr Y))) (trailing : Bool),
            (∀ p ∈ ps, ReadsAs p.1 p.2) ∧
            .comma :: tok :: rest = Spec.argTokens (ps.map Prod.fst) trailing := by
          rintro ⟨ps, tr, h1, h2⟩
          refine ⟨(tok, classify ex) :: ps, tr, ?_, by rw [h2]; simp [Spec.argTokens]⟩
          intro p hp
          rcases List.mem_cons.1 hp with rfl | hp
          · exact hr
          · exact h1 p hp
        cases hc : classify ex with
        | named n v =>
          rw [hc] at h
          exact fin (ih rest.length (by simp at hn; omega) rest _ _ _ h rfl)
        | positional v =>
          rw [hc] at h
          simp only at h
          cases o with
          | true => simp at h
          | false => exact fin (ih rest.length (by simp at hn; omega) rest _ _ _ (by simpa using h) rfl)
      cases tok with
      | expr e => exact key e rfl (readsAs_classify e)
      | lit s => exact key (.lit s) rfl (.literal s)
      | crate => simp [parseExpr] at h
      | eq => simp [parseExpr] at h
      | comma => simp [parseExpr] at h
      | junk => simp [parseExpr] at h
    | .crate :: _, h => simp [argLoop] at h
    | .eq :: _, h => simp [argLoop] at h
    | .lit _ :: _, h => simp [argLoop] at h
    | .expr _ :: _, h => simp [argLoop] at h
    | .junk :: _, h => simp [argLoop] at h

theorem parseInput_tokens (lead : Bool) (segs : List PathSegment) (format : Str)
    (ps : List (Tok Y × MacroArg (SynExpr Y))) (hp : ∀ p ∈ ps, ReadsAs p.1 p.2) (trailing : Bool) :
    parseInput (callTokens lead segs format (ps.map Prod.fst) trailing) =
      (laterPhase (ArgsInput.parse format (ps.map Prod.snd))).map
        (fun i => (some (.path false lead segs), i)) := by
  have e := argLoop_tokens ps hp trailing false [] []
  have h1 : parseInput (callTokens lead segs format (ps.map Prod.fst) trailing) =
      (argLoop false [] [] (Spec.argTokens (ps.map Prod.fst) trailing)).bind
        (fun r => .ok (some (.path false lead segs), ⟨format, r.1, r.2⟩)) := rfl
  rw [h1, e, ArgsInput.parse]
  cases splitArgs false [] [] (ps.map Prod.snd) <;> rfl

theorem parseInput_ok (toks : List (Tok Y)) (krate : Option (SynExpr Y)) (input : ArgsInput (SynExpr Y))
    (h : parseInput toks = .ok (krate, input)) (hk : krate ≠ none) :
    ∃ (lead : Bool) (segs : List PathSegment) (format : Str) (ps : List (Tok Y × MacroArg (SynExpr Y)))
        (trailing : Bool), (∀ p ∈ ps, ReadsAs p.1 p.2) ∧
      toks = callTokens lead segs format (ps.map Prod.fst) trailing ∧
      krate = some (.path false lead segs) := by
  unfold parseInput at h
  simp only [bind, Except.bind] at h
  rcases hc : parseCrate toks with e | ⟨kr, toks1⟩
  · simp [hc] at h
  rw [hc] at h
  simp only at h
  rcases hl : parseLit toks1 with e | ⟨format, toks2⟩
  · simp [hl] at h
  rw [hl] at h
  simp only at h
  rcases ha : argLoop false [] [] toks2 with e | ⟨pos, named⟩
  · simp [ha] at h
  rw [ha] at h
  have h : (kr, (⟨format, pos, named⟩ : ArgsInput (SynExpr Y))) = (krate, input) := Except.ok.inj h
  obtain ⟨rfl, rfl⟩ := Prod.mk.inj h
  unfold parseCrate at hc
  split at hc
  · rename_i lead segs rest
    simp only [Except.ok.injEq, Prod.mk.injEq] at hc
    obtain ⟨rfl, rfl⟩ := hc
    unfold parseLit at hl
    split at hl
    · rename_i s rest'
      simp only [Except.ok.injEq, Prod.mk.injEq] at hl
      obtain ⟨rfl, rfl⟩ := hl
      obtain ⟨ps, tr, h1, h2⟩ := argLoop_ok _ _ _ _ _ _ ha
      exact ⟨lead, segs, _, ps, tr, h1, by rw [h2]; rfl, rfl⟩
    · simp at hl
  · simp at hc
  · simp only [Except.ok.injEq, Prod.mk.injEq] at hc
    exact absurd hc.1.symm hk

/-! ## C48 -/

/-- C48: a call `crate = path, "format", arg, ..` with or without a trailing comma is the macro applied to
the format string and the arguments, `name = expr` being named and everything else positional. -/
theorem C48_read_as_written (E : Env) (lead : Bool) (segs : List PathSegment) (format : Str)
    (ps : List (Tok Y × MacroArg (SynExpr Y))) (hp : ∀ p ∈ ps, ReadsAs p.1 p.2) (trailing : Bool) :
    formatArgsCall E (callTokens lead segs format (ps.map Prod.fst) trailing) =
      laterPhase (formatArgsMacro E format (ps.map Prod.snd)) ∧
    formatArgsNlCall E (callTokens lead segs format (ps.map Prod.fst) trailing) =
      laterPhase (formatArgsNlMacro E format (ps.map Prod.snd)) := by
  unfold formatArgsCall formatArgsNlCall formatArgsMacro formatArgsNlMacro
  rw [parseInput_tokens lead segs format ps hp trailing]
  cases ArgsInput.parse format (ps.map Prod.snd) <;> exact ⟨rfl, rfl⟩

/-- C48: nothing else is accepted: whenever the macro expands, its input was such a call, and the expansion
is that of the format string and the arguments. -/
theorem C48_only_calls (E : Env) (toks : List (Tok Y)) (x : Expansion (SynExpr Y))
    (h : formatArgsCall E toks = .ok x) :
    ∃ (lead : Bool) (segs : List PathSegment) (format : Str) (ps : List (Tok Y × MacroArg (SynExpr Y)))
        (trailing : Bool), (∀ p ∈ ps, ReadsAs p.1 p.2) ∧
      toks = callTokens lead segs format (ps.map Prod.fst) trailing ∧
      formatArgsMacro E format (ps.map Prod.snd) = .ok x := by
  have h' := h
  unfold formatArgsCall at h
  simp only [bind, Except.bind] at h
  rcases hi : parseInput toks with e | ⟨kr, input⟩
  · simp [hi] at h
  rw [hi] at h
  simp only at h
  cases kr with
  | none => simp at h
  | some k =>
    obtain ⟨lead, segs, format, ps, tr, hp, rfl, -⟩ := parseInput_ok toks _ input hi (by simp)
    refine ⟨lead, segs, format, ps, tr, hp, rfl, ?_⟩
    rw [(C48_read_as_written E lead segs format ps hp tr).1] at h'
    unfold laterPhase at h'
    split at h'
    · rename_i a ha
      rw [ha]
      simpa using h'
    · simp at h'

/-- Every token is either a named or a positional argument, not both, and with a unique meaning. -/
theorem readsAs_unique (tok : Tok Y) (a b : MacroArg (SynExpr Y)) (ha : ReadsAs tok a)
    (hb : ReadsAs tok b) : a = b := by
  cases ha with
  | literal s => cases hb; rfl
  | named q l n v =>
    rw [← classify_of_readsAs (.named q l n v), ← classify_of_readsAs hb]
  | positional e h =>
    rw [← classify_of_readsAs (.positional e h), ← classify_of_readsAs hb]

theorem readsAs_exists (e : SynExpr Y) : ∃ a, ReadsAs (.expr e) a :=
  ⟨_, readsAs_classify e⟩

/-- C48: every list of expressions and string literals is a list of arguments, in exactly one way, and the
call with those arguments, with or without a trailing comma, is the macro applied to that list. -/
theorem C48_every_argument_list (E : Env) (lead : Bool) (segs : List PathSegment) (format : Str)
    (toks : List (Tok Y)) (htoks : ∀ t ∈ toks, (∃ e, t = .expr e) ∨ ∃ s, t = .lit s) (trailing : Bool) :
    ∃ args : List (MacroArg (SynExpr Y)),
      (args.length = toks.length ∧ ∀ p ∈ toks.zip args, ReadsAs p.1 p.2) ∧
      (∀ args' : List (MacroArg (SynExpr Y)), args'.length = toks.length →
        (∀ p ∈ toks.zip args', ReadsAs p.1 p.2) → args' = args) ∧
      formatArgsCall E (callTokens lead segs format toks trailing) =
        laterPhase (formatArgsMacro E format args) ∧
      formatArgsNlCall E (callTokens lead segs format toks trailing) =
        laterPhase (formatArgsNlMacro E format args) := by
  have hex : ∃ args : List (MacroArg (SynExpr Y)),
      args.length = toks.length ∧ ∀ p ∈ toks.zip args, ReadsAs p.1 p.2 := by
    induction toks with
    | nil => exact ⟨[], rfl, by simp⟩
    | cons t toks ih =>
      obtain ⟨args, h1, h2⟩ := ih (fun u hu => htoks u (by simp [hu]))
      have ht : ∃ a, ReadsAs t a := by
        rcases htoks t (by simp) with ⟨e, rfl⟩ | ⟨s, rfl⟩
        · exact readsAs_exists e
        · exact ⟨_, .literal s⟩
      obtain ⟨a, ha⟩ := ht
      refine ⟨a :: args, by simp [h1], ?_⟩
      intro p hp
      rw [List.zip_cons_cons, List.mem_cons] at hp
      rcases hp with rfl | hp
      · exact ha
      · exact h2 p hp
  obtain ⟨args, h1, h2⟩ := hex
  refine ⟨args, ⟨h1, h2⟩, ?_, ?_⟩
  · intro args' h1' h2'
    clear htoks
    induction toks generalizing args args' with
    | nil =>
      rw [List.length_nil, List.length_eq_zero_iff] at h1 h1'
      rw [h1, h1']
    | cons t toks ih =>
      cases args with
      | nil => simp at h1
      | cons a args =>
        cases args' with
        | nil => simp at h1'
        | cons a' args' =>
          rw [readsAs_unique t a' a (h2' (t, a') (by simp)) (h2 (t, a) (by simp)),
            ih args (by simpa using h1) (fun p hp => h2 p (by simp [hp])) args' (by simpa using h1')
              (fun p hp => h2' p (by simp [hp]))]
  · have h := C48_read_as_written E lead segs format (toks.zip args) h2 trailing
    rwa [List.map_fst_zip (by omega), List.map_snd_zip (by omega)] at h

/-- C48: the macro needs the crate. -/
theorem C48_needs_crate (E : Env) (toks : List (Tok Y)) (h : ∀ rest, toks ≠ .crate :: rest) :
    ∃ e, formatArgsCall E toks = .error e := by
  rcases hx : formatArgsCall E toks with e | x
  · exact ⟨e, rfl⟩
  · obtain ⟨lead, segs, format, ps, tr, -, rfl, -⟩ := C48_only_calls E toks x hx
    exact absurd rfl (h _)

/-- C48 on an example: `crate = k, "{}{}{n}", x.y = 1, a::b = 2, n = 3,` -/
example : (formatArgsCall asciiEnv (Y := Nat) [.crate, .eq, .expr (.path false false [⟨str "k", true⟩]), .comma,
      .lit (str "{}{}{n}"), .comma, .expr (.assign (.other 7) (.other 1)), .comma,
      .expr (.assign (.path false false [⟨str "a", true⟩, ⟨str "b", true⟩]) (.other 2)), .comma,
      .expr (.assign (.path false false [⟨str "n", true⟩]) (.other 3)), .comma]).toOption.map
        (fun x => (x.positional, x.named)) =
    some ([.assign (.other 7) (.other 1),
      .assign (.path false false [⟨str "a", true⟩, ⟨str "b", true⟩]) (.other 2)], [.other 3]) := by
  decide +kernel

/-- C48 on wrong input: a missing comma, a positional argument after a named one, two trailing commas. -/
example :
    let pre : List (Tok Nat) := [.crate, .eq, .expr (.path false false [⟨str "k", true⟩]), .comma]
    let err := fun t : List (Tok Nat) => match formatArgsCall asciiEnv t with
      | .ok _ => none
      | .error e => some e
    err (pre ++ [.lit (str "{}"), .expr (.other 1)]) = some .syntax ∧
    err (pre ++ [.lit (str "{}{n}"), .comma, .expr (.assign (.path false false [⟨str "n", true⟩]) (.other 3)),
      .comma, .expr (.other 1)]) = some (.later .positionalAfterNamed) ∧
    err (pre ++ [.lit (str "{}"), .comma, .expr (.other 1), .comma, .comma]) = some .syntax ∧
    err [.lit (str "a")] = some .noCrate := by
  decide +kernel

end Stylish.Props
