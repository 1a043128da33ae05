import Verif.Lemmas.Lifetime
import Verif.Props.Whole
import Verif.Props.Ownership
/-
How long the value of a call can be used: C80. The specification, how long what a value refers to lives in Rust, is
Spec/Lifetime.lean.
-/

namespace Stylish.Props

open Spec Spec.Lifetime Rust Format Syntax

variable {Y : Type}

/-- The generated code of a call. -/
theorem call_input (E : Env) (C : Call Y) (nl : Bool) (t : RExpr (SynExpr Y))
    (ht : (if nl then Tokens.formatArgsNlCall E C.tokens else Tokens.formatArgsCall E C.tokens) = .ok t) :
    ∃ format, Tokens.formatArgsImpl E ⟨format, positionals C.args, nameds C.args⟩ = .ok t := by
  have hp := parseInput_tokens C.lead C.segs C.format C.written C.readsAs C.trailing
  change parseInput C.tokens = (laterPhase (ArgsInput.parse C.format C.args)).map _ at hp
  rcases parse_cases C.format C.args with ⟨-, h⟩ | ⟨-, h⟩
  · rw [h] at hp
    change parseInput C.tokens = .ok (some _, ⟨C.format, positionals C.args, nameds C.args⟩) at hp
    cases nl with
    | false =>
      refine ⟨C.format, ?_⟩
      change Tokens.formatArgsCall E C.tokens = .ok t at ht
      unfold Tokens.formatArgsCall at ht
      rw [hp] at ht
      exact later_ok.1 ht
    | true =>
      refine ⟨C.format ++ str "\n", ?_⟩
      change Tokens.formatArgsNlCall E C.tokens = .ok t at ht
      unfold Tokens.formatArgsNlCall at ht
      rw [hp] at ht
      exact later_ok.1 ht
  · rw [h] at hp
    change parseInput C.tokens = .error _ at hp
    cases nl with
    | false =>
      change Tokens.formatArgsCall E C.tokens = .ok t at ht
      unfold Tokens.formatArgsCall at ht
      rw [hp] at ht
      cases ht
    | true =>
      change Tokens.formatArgsNlCall E C.tokens = .ok t at ht
      unfold Tokens.formatArgsNlCall at ht
      rw [hp] at ht
      cases ht

/-- C80: the value of a call can be kept in a variable, `let x = format_args!(..);`, and used in the statements after,
exactly if no argument that is shown is a temporary or refers to one. (Of several named arguments of one name the last is
shown.) -/
theorem C80_kept_iff (E : Env) (C : Call Y) (nl : Bool) (t : RExpr (SynExpr Y))
    (ht : (if nl then Tokens.formatArgsNlCall E C.tokens else Tokens.formatArgsCall E C.tokens) = .ok t)
    (s : Exprs (SynExpr Y)) :
    CanBeKept s t ↔
      (∀ e ∈ positionals C.args, s.Lasting e) ∧ ∀ n e, lastNamed C.args n = some e → s.Lasting e := by
  obtain ⟨format, ht⟩ := call_input E C nl t ht
  obtain ⟨h1, -, h3, h4⟩ := Tokens.held_args E s .block .statement _ t ht
  have hl : ∀ e, (∀ l ∈ (Tokens.argHeld s .statement e).all, l = .always ∨ l = .block) ↔ s.Lasting e := by
    intro e
    unfold Tokens.argHeld Exprs.Lasting
    simp only [Held.all, List.mem_cons, List.not_mem_nil, or_false, forall_eq_or_imp, forall_eq]
    cases s.source e <;> cases s.borrows e <;> decide
  have hn : ∀ n e, lastNamed C.args n = some e ↔
      ∃ i, namedIndex ((nameds C.args).map Prod.fst) n = some i ∧ ((nameds C.args).map Prod.snd)[i]? = some e := by
    intro n e
    rw [lastNamed_eq, Option.bind_eq_some_iff]
  constructor
  · intro h
    refine ⟨fun e he => (hl e).1 fun l hm => h l (h3 e he l hm), fun n e he => (hl e).1 fun l hm => ?_⟩
    obtain ⟨i, hi, he⟩ := (hn n e).1 he
    exact h l (h4 n i e hi he l hm)
  · rintro ⟨hp, hnm⟩ l hm
    rcases h1 l hm with rfl | ⟨e, he, hm⟩ | ⟨n, i, e, hi, he, hm⟩ | rfl
    · exact .inr rfl
    · exact (hl e).2 (hp e he) l hm
    · exact (hl e).2 (hnm n e ((hn n e).2 ⟨i, hi, he⟩)) l hm
    · exact .inr rfl

/-- C80: whatever the arguments are, the value can be used in the statement the call is in: passed to functions and
methods, as `write!` and `format!` do. -/
theorem C80_passed (E : Env) (C : Call Y) (nl : Bool) (t : RExpr (SynExpr Y))
    (ht : (if nl then Tokens.formatArgsNlCall E C.tokens else Tokens.formatArgsCall E C.tokens) = .ok t)
    (s : Exprs (SynExpr Y)) : CanBePassed s t := by
  obtain ⟨format, ht⟩ := call_input E C nl t ht
  obtain ⟨h1, -, -, -⟩ := Tokens.held_args E s .statement .statement _ t ht
  have hl : ∀ e, ∀ l ∈ (Tokens.argHeld s .statement e).all, l ≠ .inner := by
    intro e
    unfold Tokens.argHeld
    simp only [Held.all, List.mem_cons, List.not_mem_nil, or_false, forall_eq_or_imp, forall_eq]
    cases s.source e <;> cases s.borrows e <;> decide
  intro l hm
  rcases h1 l hm with rfl | ⟨e, he, hm⟩ | ⟨n, i, e, hi, he, hm⟩ | rfl
  · decide
  · exact hl e l hm
  · exact hl e l hm
  · decide

/-- C80: the value refers to a temporary, even if there are no arguments: it cannot be returned from a function, and unless
it stands in a `let`, it cannot be used after the statement. -/
theorem C80_not_returned (E : Env) (C : Call Y) (nl : Bool) (t : RExpr (SynExpr Y))
    (ht : (if nl then Tokens.formatArgsNlCall E C.tokens else Tokens.formatArgsCall E C.tokens) = .ok t)
    (s : Exprs (SynExpr Y)) :
    .statement ∈ (held s .statement .statement callersVars t).all := by
  obtain ⟨format, ht⟩ := call_input E C nl t ht
  exact (Tokens.held_args E s .statement .statement _ t ht).2.1

/-! ## Examples -/

/-- The hypothesis is met by `format_args!("{x:(bold)}{a}{}", one, a = two)`. -/
theorem sampleCall_expands : ∃ t, (if false then Tokens.formatArgsNlCall asciiEnv sampleCall.tokens
    else Tokens.formatArgsCall asciiEnv sampleCall.tokens) = .ok t := by
  have h : (Tokens.formatArgsCall asciiEnv hygieneCall).isOk = true := by decide +kernel
  rcases e : Tokens.formatArgsCall asciiEnv hygieneCall with _ | t
  · rw [e] at h; cases h
  · exact ⟨t, e⟩

/-- Its value can be kept if `one` and `two` are variables, and not if `one`, or `two`, is a call of a function. -/
example : ∃ t, Tokens.formatArgsCall asciiEnv sampleCall.tokens = .ok t ∧
    CanBeKept ⟨fun _ => .place, fun _ => false⟩ t ∧ ¬ CanBeKept ⟨fun _ => .temporary, fun _ => false⟩ t ∧
    ¬ CanBeKept ⟨fun _ => .place, fun _ => true⟩ t := by
  obtain ⟨t, ht⟩ := sampleCall_expands
  have hmem : ∃ e, e ∈ positionals sampleCall.args := by
    have : (positionals sampleCall.args).length = 1 := by decide +kernel
    rcases h : positionals sampleCall.args with _ | ⟨e, es⟩
    · rw [h] at this; cases this
    · exact ⟨e, by simp⟩
  obtain ⟨e, he⟩ := hmem
  refine ⟨t, ht, ?_, ?_, ?_⟩
  · exact (C80_kept_iff asciiEnv sampleCall false t ht _).2
      ⟨fun _ _ => ⟨Source.noConfusion, rfl⟩, fun _ _ _ => ⟨Source.noConfusion, rfl⟩⟩
  · exact fun h => ((C80_kept_iff asciiEnv sampleCall false t ht _).1 h).1 e he |>.1 rfl
  · exact fun h => nomatch (((C80_kept_iff asciiEnv sampleCall false t ht _).1 h).1 e he).2

/-- What the specification says of other code. `&f()` can be kept, and so can `S { f: &f() }`, but not `g(&f())` or
`match &f() { y => S { f: y } }`. With a variable or a constant instead of `f()`, they can. -/
example : (fun s : Exprs Nat =>
    CanBeKept s (.ref (.user 0)) ∧ CanBeKept s (.struct [] [] [.ref (.user 0)]) ∧
    ¬ CanBeKept s (.call (.export []) [.ref (.user 0)]) ∧
    ¬ CanBeKept s (.matchIdent (.ref (.user 0)) exY (.struct [] [] [.ident exY])) ∧
    CanBeKept s (.call (.export []) [.ref (.user 1)]) ∧
    CanBeKept s (.matchIdent (.ref (.user 2)) exY (.struct [] [] [.ident exY])))
    ⟨fun n => if n = 0 then .temporary else if n = 1 then .place else .constant, fun _ => false⟩ := by
  simp [CanBeKept, held, heldAll, home, Held.all, Held.allOf, Vars.bind]

/-- `{ let y = x; S { f: &y } }` cannot even be passed, but `match x { y => move || g(y) }` can. -/
example : ¬ CanBePassed (Y := Nat) ⟨fun _ => .place, fun _ => false⟩
      (.letMut exY (.ident exX) (.struct [] [] [.ref (.ident exY)])) ∧
    CanBePassed (Y := Nat) ⟨fun _ => .place, fun _ => false⟩
      (.matchIdent (.ident exX) exY (.closure exX [] (.call (.export []) [.ident exY]))) := by
  have hne : exY ≠ exX := by decide +kernel
  simp [CanBePassed, held, heldAll, home, Held.all, Held.allOf, Vars.bind, captures, capturesAll, Vars.holds, callersVars, hne]

end Stylish.Props
