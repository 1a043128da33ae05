import Verif.Lemmas.Tokens
import Verif.Lemmas.Hygiene
import Verif.Props.Front
/-
The code the macros generate, at the place of the call: C74, C75, C76.
-/

namespace Stylish.Props

open Spec Spec.Syntax Rust Format

variable {Y St : Type}

/-! ## Lemmas -/

theorem agree_ok {A B : Type} {P : A → B → Prop} {x : Compile A} {y : Compile B} (h : Tokens.Agree P x y) {a : A} {b : B}
    (hx : x = .ok a) (hy : y = .ok b) : P a b := by
  subst hx; subst hy; exact h

/-- A call of the macros, with the code in place of what it does. -/
theorem call_cases (E : Env) (toks : List (Tok Y)) :
    (∃ e, Tokens.formatArgsCall E toks = .error e ∧ formatArgsCall E toks = .error e) ∨
    ∃ input, Tokens.formatArgsCall E toks = laterPhase (Tokens.formatArgsImpl E input) ∧
      formatArgsCall E toks = laterPhase (formatArgsImpl E input) := by
  unfold Tokens.formatArgsCall formatArgsCall
  rcases parseInput toks with e | ⟨_ | k, input⟩
  · exact .inl ⟨e, rfl, rfl⟩
  · exact .inl ⟨_, rfl, rfl⟩
  · exact .inr ⟨input, rfl, rfl⟩

theorem nl_call_cases (E : Env) (toks : List (Tok Y)) :
    (∃ e, Tokens.formatArgsNlCall E toks = .error e ∧ formatArgsNlCall E toks = .error e) ∨
    ∃ input, Tokens.formatArgsNlCall E toks = laterPhase (Tokens.formatArgsImpl E input) ∧
      formatArgsNlCall E toks = laterPhase (formatArgsImpl E input) := by
  unfold Tokens.formatArgsNlCall formatArgsNlCall
  rcases parseInput toks with e | ⟨_ | k, input⟩
  · exact .inl ⟨e, rfl, rfl⟩
  · exact .inl ⟨_, rfl, rfl⟩
  · exact .inr ⟨_, rfl, rfl⟩

theorem later_error {A : Type} {x : Compile A} {e : CallError} :
    laterPhase x = .error e ↔ ∃ e', x = .error e' ∧ e = .later e' := by
  cases x with
  | ok a => exact ⟨fun h => (nomatch h), fun ⟨_, h, _⟩ => (nomatch h)⟩
  | error e' =>
    refine ⟨fun h => ⟨e', rfl, ?_⟩, fun ⟨e1, h1, h2⟩ => ?_⟩
    · cases h; rfl
    · cases h1; rw [h2]; rfl

theorem later_ok {A : Type} {x : Compile A} {a : A} : laterPhase x = .ok a ↔ x = .ok a := by
  cases x with
  | ok b => exact ⟨fun h => by cases h; rfl, fun h => by cases h; rfl⟩
  | error e => exact ⟨fun h => (nomatch h), fun h => (nomatch h)⟩

theorem impl_error (E : Env) (input : ArgsInput Y) (e : CompileError) :
    Tokens.formatArgsImpl E input = .error e ↔ formatArgsImpl E input = .error e := by
  have h := Tokens.agree_impl E input
  rcases h1 : Tokens.formatArgsImpl E input with e1 | t <;> rcases h2 : formatArgsImpl E input with e2 | x <;>
    rw [h1, h2] at h
  · obtain rfl : e1 = e2 := h
    exact ⟨fun h => by cases h; rfl, fun h => by cases h; rfl⟩
  · exact h.elim
  · exact h.elim
  · exact ⟨fun h => (nomatch h), fun h => (nomatch h)⟩

/-- What holds of the code for every input holds of the code of a call. -/
theorem of_call {P : RExpr (SynExpr Y) → Expansion (SynExpr Y) → Prop} {E : Env}
    (h : ∀ input, Tokens.Agree P (Tokens.formatArgsImpl E input) (formatArgsImpl E input)) {toks : List (Tok Y)}
    {t : RExpr (SynExpr Y)} {x : Expansion (SynExpr Y)}
    (hc : (Tokens.formatArgsCall E toks = .ok t ∧ formatArgsCall E toks = .ok x) ∨
      (Tokens.formatArgsNlCall E toks = .ok t ∧ formatArgsNlCall E toks = .ok x)) : P t x := by
  rcases hc with ⟨ht, hx⟩ | ⟨ht, hx⟩
  · rcases call_cases E toks with ⟨e, h1, -⟩ | ⟨input, h1, h2⟩
    · rw [h1] at ht; cases ht
    · rw [h1] at ht; rw [h2] at hx
      exact agree_ok (h input) (later_ok.1 ht) (later_ok.1 hx)
  · rcases nl_call_cases E toks with ⟨e, h1, -⟩ | ⟨input, h1, h2⟩
    · rw [h1] at ht; cases ht
    · rw [h1] at ht; rw [h2] at hx
      exact agree_ok (h input) (later_ok.1 ht) (later_ok.1 hx)

/-! ## C74 -/

/-- C74: the macros that generate the code refuse a call with the same error as the macros of Model/MacroInput.lean. -/
theorem C74_same_errors (E : Env) (toks : List (Tok Y)) (e : CallError) :
    (Tokens.formatArgsCall E toks = .error e ↔ formatArgsCall E toks = .error e) ∧
    (Tokens.formatArgsNlCall E toks = .error e ↔ formatArgsNlCall E toks = .error e) := by
  constructor
  · rcases call_cases E toks with ⟨e', h1, h2⟩ | ⟨input, h1, h2⟩
    · rw [h1, h2]; exact ⟨fun h => by cases h; rfl, fun h => by cases h; rfl⟩
    · rw [h1, h2, later_error, later_error]
      simp only [impl_error]
  · rcases nl_call_cases E toks with ⟨e', h1, h2⟩ | ⟨input, h1, h2⟩
    · rw [h1, h2]; exact ⟨fun h => by cases h; rfl, fun h => by cases h; rfl⟩
    · rw [h1, h2, later_error, later_error]
      simp only [impl_error]

/-- C74, in part: the generated code, compiled at the place of the call, evaluates the arguments and the captured
variables and makes the `Arguments` the expansion stands for, whatever else is in scope.
Missing: places where `Some` or the trait `Default` is not the one of the prelude, or where one of the names the
generated code binds is the name of a constant: see the counterexamples. -/
theorem C74_names_partial (E : Env) (toks : List (Tok Y)) (t : RExpr (SynExpr Y)) (x : Expansion (SynExpr Y))
    (hc : (Tokens.formatArgsCall E toks = .ok t ∧ formatArgsCall E toks = .ok x) ∨
      (Tokens.formatArgsNlCall E toks = .ok t ∧ formatArgsNlCall E toks = .ok x))
    (sc : Scope) (hsc : CallSite sc) (hsome : PreludeSome sc) (hdef : PreludeDefault sc)
    (u : UserExprs (SynExpr Y) St) (m : SynExpr Y → Expr St) (types : SynExpr Y → FormatTrait → Bool)
    (hu : ExprsMean u sc m types)
    (vars : Str → TypedVal) (hv : ∀ n ∈ x.implicit, sc.lookup ⟨n, .callers⟩ = some (.arg (vars n)))
    (himp : Implements x types vars) (st : St) :
    eval u sc t st = some (.arguments ((x.mapArgs m).eval (fun n => pureExpr (vars n).value) st).1,
      ((x.mapArgs m).eval (fun n => pureExpr (vars n).value) st).2) := by
  refine of_call (P := Tokens.SameCode) (Tokens.agree_impl E) hc u sc hsc m types hu vars hv himp (fun s _ => ?_) st
  cases s with
  | lit => trivial
  | arg => exact ⟨hdef, fun _ => hsome⟩

/-- C74: the same for a call written `format_args!("..", a, n = b)`: the code gives what the format string says of the
values of the arguments, evaluated once each in the order written. -/
theorem C74_as_written_partial {E : Env} (hE : E.Lawful) (lead : Bool) (segs : List PathSegment) (format : Str)
    (ps : List (Tok Y × MacroArg (SynExpr Y))) (hp : ∀ p ∈ ps, ReadsAs p.1 p.2) (trailing : Bool)
    (t : RExpr (SynExpr Y))
    (ht : Tokens.formatArgsCall E (callTokens lead segs format (ps.map Prod.fst) trailing) = .ok t)
    (sc : Scope) (hsc : CallSite sc) (hsome : PreludeSome sc) (hdef : PreludeDefault sc)
    (u : UserExprs (SynExpr Y) St) (m : SynExpr Y → Expr St) (types : SynExpr Y → FormatTrait → Bool)
    (hu : ExprsMean u sc m types)
    (x : Expansion (SynExpr Y)) (hm : formatArgsMacro E format (ps.map Prod.snd) = .ok x)
    (vars : Str → TypedVal) (hv : ∀ n ∈ x.implicit, sc.lookup ⟨n, .callers⟩ = some (.arg (vars n)))
    (himp : Implements x types vars) (st : St) :
    ∃ out, formatArgs E format (evalArgs (ps.map fun p => argMeaning m p.2) st).1
        (fun n => (vars n).value) = .ok out ∧
      eval u sc t st = some (.arguments out, (evalArgs (ps.map fun p => argMeaning m p.2) st).2) := by
  have h48 := (C48_read_as_written E lead segs format ps hp trailing).1
  rw [hm] at h48
  obtain ⟨out, h1, h2⟩ := eval_mapArgs hE ⟨m, fun n => pureExpr (vars n).value⟩ (fun n => (vars n).value)
    (fun _ => rfl) format _ x hm st
  rw [List.map_map] at h1 h2
  refine ⟨out, h1, ?_⟩
  rw [C74_names_partial E _ t x (.inl ⟨ht, h48⟩) sc hsc hsome hdef u m types hu vars hv himp st]
  simp only at h2
  rw [h2]
  rfl

/-- C74: two such places where the arguments and the captured variables have the same values are the same to the code,
whatever else the callers have in scope. -/
theorem C74_place_partial (E : Env) (toks : List (Tok Y)) (t : RExpr (SynExpr Y)) (x : Expansion (SynExpr Y))
    (hc : (Tokens.formatArgsCall E toks = .ok t ∧ formatArgsCall E toks = .ok x) ∨
      (Tokens.formatArgsNlCall E toks = .ok t ∧ formatArgsNlCall E toks = .ok x))
    (sc sc' : Scope) (hsc : CallSite sc ∧ PreludeSome sc ∧ PreludeDefault sc)
    (hsc' : CallSite sc' ∧ PreludeSome sc' ∧ PreludeDefault sc')
    (u u' : UserExprs (SynExpr Y) St) (m : SynExpr Y → Expr St) (types : SynExpr Y → FormatTrait → Bool)
    (hu : ExprsMean u sc m types) (hu' : ExprsMean u' sc' m types)
    (vars : Str → TypedVal) (hv : ∀ n ∈ x.implicit, sc.lookup ⟨n, .callers⟩ = some (.arg (vars n)))
    (hv' : ∀ n ∈ x.implicit, sc'.lookup ⟨n, .callers⟩ = some (.arg (vars n))) (himp : Implements x types vars) (st : St) :
    eval u sc t st = eval u' sc' t st := by
  rw [C74_names_partial E toks t x hc sc hsc.1 hsc.2.1 hsc.2.2 u m types hu vars hv himp,
    C74_names_partial E toks t x hc sc' hsc'.1 hsc'.2.1 hsc'.2.2 u' m types hu' vars hv' himp]

/-- C74: without placeholders, nothing of the prelude is needed; without attributes, `Some` is not. -/
theorem C74_plain (E : Env) (toks : List (Tok Y)) (t : RExpr (SynExpr Y)) (x : Expansion (SynExpr Y))
    (hc : (Tokens.formatArgsCall E toks = .ok t ∧ formatArgsCall E toks = .ok x) ∨
      (Tokens.formatArgsNlCall E toks = .ok t ∧ formatArgsNlCall E toks = .ok x))
    (sc : Scope) (hsc : CallSite sc)
    (hdef : PreludeDefault sc ∨ ∀ slot tr a d, Stmt.arg slot tr a d ∉ x.statements)
    (hsome : ∀ slot tr a d, Stmt.arg slot tr a d ∈ x.statements → d = StyleDiff.default)
    (u : UserExprs (SynExpr Y) St) (m : SynExpr Y → Expr St) (types : SynExpr Y → FormatTrait → Bool)
    (hu : ExprsMean u sc m types)
    (vars : Str → TypedVal) (hv : ∀ n ∈ x.implicit, sc.lookup ⟨n, .callers⟩ = some (.arg (vars n)))
    (himp : Implements x types vars) (st : St) :
    eval u sc t st = some (.arguments ((x.mapArgs m).eval (fun n => pureExpr (vars n).value) st).1,
      ((x.mapArgs m).eval (fun n => pureExpr (vars n).value) st).2) := by
  refine of_call (P := Tokens.SameCode) (Tokens.agree_impl E) hc u sc hsc m types hu vars hv himp (fun s hs => ?_) st
  cases s with
  | lit => trivial
  | arg slot tr a d =>
    refine ⟨hdef.resolve_right fun h => h slot tr a d hs, fun hd => absurd (hsome slot tr a d hs) hd⟩

/-- C74 fails without the trait `Default` in scope, as in a module with `#![no_implicit_prelude]`: no call with a
placeholder compiles. -/
theorem C74_needs_Default (E : Env) (toks : List (Tok Y)) (t : RExpr (SynExpr Y)) (x : Expansion (SynExpr Y))
    (hc : (Tokens.formatArgsCall E toks = .ok t ∧ formatArgsCall E toks = .ok x) ∨
      (Tokens.formatArgsNlCall E toks = .ok t ∧ formatArgsNlCall E toks = .ok x))
    (hs : ∃ slot tr a d, Stmt.arg slot tr a d ∈ x.statements)
    (sc : Scope) (hdef : sc.defaultTrait = false) (u : UserExprs (SynExpr Y) St) (st : St) :
    eval u sc t st = none := by
  obtain ⟨slot, tr, a, d, hs⟩ := hs
  exact ((of_call (P := Tokens.DeadCode) (Tokens.dead_impl E) hc).2 slot tr a d hs).1 u sc st hdef

/-- C74 fails without `Some` in scope: no call with an attribute compiles. -/
theorem C74_needs_Some (E : Env) (toks : List (Tok Y)) (t : RExpr (SynExpr Y)) (x : Expansion (SynExpr Y))
    (hc : (Tokens.formatArgsCall E toks = .ok t ∧ formatArgsCall E toks = .ok x) ∨
      (Tokens.formatArgsNlCall E toks = .ok t ∧ formatArgsNlCall E toks = .ok x))
    (hs : ∃ slot tr a d, Stmt.arg slot tr a d ∈ x.statements ∧ d ≠ StyleDiff.default)
    (sc : Scope) (hsc : CallSite sc) (hsome : sc.items (str "Some") = none) (u : UserExprs (SynExpr Y) St) (st : St) :
    eval u sc t st = none := by
  obtain ⟨slot, tr, a, d, hs, hd⟩ := hs
  exact ((of_call (P := Tokens.DeadCode) (Tokens.dead_impl E) hc).2 slot tr a d hs).2.1 hd u sc st
    ⟨Tokens.lookup_ours_none hsc.1 "Some", hsome⟩

/-- C74 fails where a name the generated code binds is the name of a constant, static, or unit or tuple struct: for the
names bound by all generated code, for `diff`, bound for each placeholder, and for `__stylish_arg`, bound for each
placeholder with a trait of std. -/
theorem C74_needs_names (E : Env) (toks : List (Tok Y)) (t : RExpr (SynExpr Y)) (x : Expansion (SynExpr Y))
    (hc : (Tokens.formatArgsCall E toks = .ok t ∧ formatArgsCall E toks = .ok x) ∨
      (Tokens.formatArgsNlCall E toks = .ok t ∧ formatArgsNlCall E toks = .ok x))
    (sc : Scope) (u : UserExprs (SynExpr Y) St) (st : St)
    (h : (∃ name ∈ ["__stylish_positional_args", "__stylish_named_args", "__stylish_implicit_named_args",
        "__stylish_formatter"], ¬ Free sc (str name)) ∨
      (¬ Free sc (str "diff") ∧ ∃ slot tr a d, Stmt.arg slot tr a d ∈ x.statements) ∨
      (¬ Free sc (str "__stylish_arg") ∧ ∃ slot tr a d, Stmt.arg slot tr a d ∈ x.statements ∧ tr ≠ .Stylish)) :
    eval u sc t st = none := by
  have hd := of_call (P := Tokens.DeadCode) (Tokens.dead_impl E) hc
  rcases h with ⟨name, hn, h⟩ | ⟨h, slot, tr, a, d, hs⟩ | ⟨h, slot, tr, a, d, hs, htr⟩
  · exact hd.1 name hn u sc st h
  · exact (hd.2 slot tr a d hs).2.2.1 u sc st h
  · exact (hd.2 slot tr a d hs).2.2.2 htr u sc st h

/-! ## C75 -/

/-- C75: the generated code does the same, or fails to compile just the same, in any two places that have the same items
and traits in scope, whatever the caller's local variables are, if the arguments and the variables captured by the
format string do the same. Nothing is assumed of the items. -/
theorem C75_locals (E : Env) (toks : List (Tok Y)) (t : RExpr (SynExpr Y)) (x : Expansion (SynExpr Y))
    (hc : (Tokens.formatArgsCall E toks = .ok t ∧ formatArgsCall E toks = .ok x) ∨
      (Tokens.formatArgsNlCall E toks = .ok t ∧ formatArgsNlCall E toks = .ok x))
    (sc sc' : Scope) (hitems : sc.items = sc'.items) (htraits : sc.defaultTrait = sc'.defaultTrait)
    (hl : ∀ b ∈ sc.locals, b.1.site = .callers) (hl' : ∀ b ∈ sc'.locals, b.1.site = .callers)
    (hv : ∀ n ∈ x.implicit, sc.lookup ⟨n, .callers⟩ = sc'.lookup ⟨n, .callers⟩)
    (u u' : UserExprs (SynExpr Y) St) (hu : ∀ e st, u sc.locals e st = u' sc'.locals e st) (st : St) :
    eval u sc t st = eval u' sc' t st := by
  have filter_self : ∀ l : List (Ident × Val), (∀ b ∈ l, b.1.site = .callers) →
      (l.filter fun b => b.1.site = .callers) = l :=
    fun l h => List.filter_eq_self.2 fun b hb => by simpa using h b hb
  have none_of : ∀ l : List (Ident × Val), (∀ b ∈ l, b.1.site = .callers) → ∀ i : Ident, i.site = .ours →
      l.lookup i = none := by
    intro l h i hi
    rw [List.lookup_eq_none_iff]
    intro b hb
    simp only [bne_iff_ne, ne_eq]
    intro e
    rw [e, h b hb] at hi
    cases hi
  refine Tokens.eval_same t (of_call (P := fun t x => Tokens.Mentions x.implicit t) (Tokens.mentions_impl E) hc) u u'
    sc sc' ⟨hitems, htraits, fun i hi => ?_, hv⟩ ?_ st
  · rw [none_of _ hl i hi, none_of _ hl' i hi]
  · unfold Tokens.callersLocals
    rw [filter_self _ hl, filter_self _ hl']
    exact hu

/-- C75: so a variable the format string does not name can be added, under any name. -/
theorem C75_unrelated (E : Env) (toks : List (Tok Y)) (t : RExpr (SynExpr Y)) (x : Expansion (SynExpr Y))
    (hc : (Tokens.formatArgsCall E toks = .ok t ∧ formatArgsCall E toks = .ok x) ∨
      (Tokens.formatArgsNlCall E toks = .ok t ∧ formatArgsNlCall E toks = .ok x))
    (sc : Scope) (hl : ∀ b ∈ sc.locals, b.1.site = .callers) (name : Str) (hn : name ∉ x.implicit) (v : Val)
    (u : UserExprs (SynExpr Y) St)
    (hu : ∀ e st, u ((⟨name, .callers⟩, v) :: sc.locals) e st = u sc.locals e st) (st : St) :
    eval u { sc with locals := (⟨name, .callers⟩, v) :: sc.locals } t st = eval u sc t st := by
  refine C75_locals E toks t x hc ⟨(⟨name, .callers⟩, v) :: sc.locals, sc.items, sc.defaultTrait⟩ sc rfl rfl ?_ hl (fun n hn' => ?_) u u hu st
  · intro b hb
    rcases List.mem_cons.1 hb with rfl | hb
    · rfl
    · exact hl b hb
  · unfold Scope.lookup
    simp only [List.lookup_cons]
    have : (Ident.mk n .callers == Ident.mk name .callers) = false := by
      rw [beq_eq_false_iff_ne]
      intro e
      cases e
      exact hn hn'
    rw [this]

/-! ## C76 -/

/-- C76: a call compiles exactly if the type of each argument and captured variable implements the traits of the
placeholders it is used in: `core::fmt::Debug` for `?`, `stylish::Display` for `s`, and so on. No other trait is needed. -/
theorem C76_traits (E : Env) (toks : List (Tok Y)) (t : RExpr (SynExpr Y)) (x : Expansion (SynExpr Y))
    (hc : (Tokens.formatArgsCall E toks = .ok t ∧ formatArgsCall E toks = .ok x) ∨
      (Tokens.formatArgsNlCall E toks = .ok t ∧ formatArgsNlCall E toks = .ok x))
    (sc : Scope) (hsc : CallSite sc) (hsome : PreludeSome sc) (hdef : PreludeDefault sc)
    (u : UserExprs (SynExpr Y) St) (m : SynExpr Y → Expr St) (types : SynExpr Y → FormatTrait → Bool)
    (hu : ExprsMean u sc m types) (vars : Str → TypedVal)
    (hv : ∀ n ∈ x.implicit, sc.lookup ⟨n, .callers⟩ = some (.arg (vars n))) (st : St) :
    (∃ r, eval u sc t st = some r) ↔ Implements x types vars := by
  constructor
  · rintro ⟨r, hr⟩
    apply Classical.byContradiction
    intro h
    rw [of_call (P := Tokens.TraitCode) (Tokens.trait_impl E) hc u sc hsc m types hu vars hv h st] at hr
    cases hr
  · intro h
    exact ⟨_, C74_names_partial E toks t x hc sc hsc hsome hdef u m types hu vars hv h st⟩

/-- C76: if a trait is missing, the call does not compile anywhere. -/
theorem C76_missing (E : Env) (toks : List (Tok Y)) (t : RExpr (SynExpr Y)) (x : Expansion (SynExpr Y))
    (hc : (Tokens.formatArgsCall E toks = .ok t ∧ formatArgsCall E toks = .ok x) ∨
      (Tokens.formatArgsNlCall E toks = .ok t ∧ formatArgsNlCall E toks = .ok x))
    (sc : Scope) (hsc : CallSite sc)
    (u : UserExprs (SynExpr Y) St) (m : SynExpr Y → Expr St) (types : SynExpr Y → FormatTrait → Bool)
    (hu : ExprsMean u sc m types) (vars : Str → TypedVal)
    (hv : ∀ n ∈ x.implicit, sc.lookup ⟨n, .callers⟩ = some (.arg (vars n))) (h : ¬ Implements x types vars) (st : St) :
    eval u sc t st = none :=
  of_call (P := Tokens.TraitCode) (Tokens.trait_impl E) hc u sc hsc m types hu vars hv h st

/-! ## Examples -/

/-- A value a caller's `Some` may return. -/
def noColor : List Val → Option Val := fun _ => some .optNone

/-- The traits of a type that implements `core::fmt::Display` only. -/
def onlyDisplay : FormatTrait → Bool := fun tr => decide (tr = .Display)

/-- A place with variables and functions whose names are also in the generated code. -/
def busyScope : Scope where
  locals := [(⟨str "x", .callers⟩, .arg ⟨textArg (str "mine"), onlyDisplay⟩), (⟨str "__stylish_formatter", .callers⟩, .unit),
    (⟨str "__stylish_positional_args", .callers⟩, .unit), (⟨str "Some", .callers⟩, .unit)]
  items n :=
    if n = str "Some" then some (.constructor fnSome)
    else if n = str "diff" then some (.function noColor)
    else if n = str "StyleDiff" then some (.constant .unit)
    else none
  defaultTrait := true

instance (sc : Scope) (name : Str) : Decidable (Free sc name) := by
  unfold Free
  split
  · exact .isTrue trivial
  · exact .isTrue trivial
  · exact .isFalse id

theorem busyScope_site : CallSite busyScope := by
  unfold CallSite
  decide +kernel

example : CallSite busyScope ∧ PreludeSome busyScope ∧ PreludeDefault busyScope :=
  ⟨busyScope_site, by simp only [PreludeSome, busyScope, if_pos], rfl⟩

/-- The same, but with a function `Some` of the caller's. -/
def otherSome : Scope :=
  { busyScope with items := fun n => if n = str "Some" then some (.function noColor) else none }

/-- The caller's expressions: `other 1` is the text `y`. -/
def someExprs : UserExprs (SynExpr Nat) (List Str) := fun _ e st =>
  some (.arg ⟨(sampleMeaning.expr e st).1, onlyDisplay⟩, (sampleMeaning.expr e st).2)

example : ExprsMean someExprs busyScope sampleMeaning.expr (fun _ => onlyDisplay) := fun _ _ => rfl

/-- `format_args!("..", one, a = two)` -/
def callOf (format : String) : List (Tok Nat) :=
  callTokens false [⟨str "$crate", true⟩] (str format) (sampleArgs.map Prod.fst) false

/-- `format_args!("{x:(bold)}{a}{}", one, a = two)` -/
def hygieneCall : List (Tok Nat) := callOf "{x:(bold)}{a}{}"

/-- What evaluating the code of the call writes, and what it records. -/
def runAt (sc : Scope) (call : List (Tok Nat)) : Option ((List Chunk × Res FmtError Unit) × List Str) :=
  match Tokens.formatArgsCall asciiEnv call with
  | .error _ => none
  | .ok t =>
    match eval someExprs sc t [] with
    | some (.arguments a, st) => some (writes a.f .default .default, st)
    | _ => none

/-- The same for this call. -/
def hygieneRun (sc : Scope) : Option ((List Chunk × Res FmtError Unit) × List Str) := runAt sc hygieneCall

/-- C74_names_partial applies: the code of the call, with the value of `x` and the arguments. -/
example : hygieneRun busyScope =
    some (([(str "mine", ⟨.Default, .Default, .Bold⟩), (str "y", .default), (str "x", .default)], .ok ()),
      [str "one", str "two"]) ∧
    (formatArgsCall asciiEnv hygieneCall).toOption.map Expansion.implicit = some [str "x"] := by
  decide +kernel

/-- C74 is false in general: the caller's function `Some` is called by the generated code, and the text is not bold.
Without `Default`, or `Some`, or with a constant `diff`, the call does not compile. -/
theorem C74_not_always : hygieneRun otherSome =
    some (([(str "mine", .default), (str "y", .default), (str "x", .default)], .ok ()), [str "one", str "two"]) ∧
    hygieneRun { busyScope with defaultTrait := false } = none ∧
    hygieneRun { busyScope with items := fun _ => none } = none ∧
    hygieneRun { busyScope with items := fun n => if n = str "diff" then some (.constant .unit) else busyScope.items n } =
      none := by
  decide +kernel

/-- C75 applies to places that differ in the names of the caller's variables, also to those where C74 does not. -/
example : otherSome.items = { otherSome with locals := [(⟨str "x", .callers⟩, .arg ⟨textArg (str "mine"), onlyDisplay⟩)] }.items ∧
    (∀ b ∈ otherSome.locals, b.1.site = .callers) ∧
    otherSome.lookup ⟨str "x", .callers⟩ =
      Scope.lookup { otherSome with locals := [(⟨str "x", .callers⟩, .arg ⟨textArg (str "mine"), onlyDisplay⟩)] } ⟨str "x", .callers⟩ ∧
    hygieneRun otherSome =
      hygieneRun { otherSome with locals := [(⟨str "x", .callers⟩, .arg ⟨textArg (str "mine"), onlyDisplay⟩)] } := by
  refine ⟨rfl, by decide +kernel, ?_, by decide +kernel⟩
  simp [Scope.lookup, otherSome, busyScope]

/-- C76 applies: with `Display` only, `{x}` compiles, `{x:?}` and `{x:s}` do not. -/
example : (runAt busyScope (callOf "{x}{}{a}")).isSome ∧ (runAt busyScope (callOf "{x:?}{}{a}")) = none ∧
    (runAt busyScope (callOf "{x:s}{}{a}")) = none ∧ (runAt busyScope (callOf "{x:#x}{}{a}")) = none := by
  decide +kernel

example : ∃ x, formatArgsCall asciiEnv hygieneCall = .ok x ∧
    Implements x (fun _ => onlyDisplay) (fun _ => ⟨textArg (str "mine"), onlyDisplay⟩) := by
  rcases h : formatArgsCall asciiEnv hygieneCall with e | x
  · exact absurd (show (formatArgsCall asciiEnv hygieneCall).toBool = true by decide +kernel) (by rw [h]; exact fun h' => (nomatch h'))
  · refine ⟨x, rfl, fun slot tr a d hs => ?_⟩
    have htr : ∀ s ∈ x.statements, (match s with | .arg _ tr _ _ => onlyDisplay tr | .lit _ => true) = true := by
      have h1 : (match formatArgsCall asciiEnv hygieneCall with
        | .ok x => x.statements.all (fun s => match s with | .arg _ tr _ _ => onlyDisplay tr | .lit _ => true)
        | .error _ => true) = true := by decide +kernel
      rw [h] at h1
      exact List.all_eq_true.1 h1
    have := htr _ hs
    cases slot
    · exact fun _ _ => this
    · exact fun _ _ => this
    · exact fun _ _ => this

end Stylish.Props
