import Verif.Props.Hygiene
import Verif.Spec.Whole
/-
When a call compiles, in terms of the format string and the types of the arguments: C76.
-/

namespace Stylish.Props

open Spec Spec.Syntax Rust Format

variable {X Y St : Type}

/-! ## Lemmas -/

theorem mem_stmtsFor (names : List Str) (bare k : Nat) (t : List PieceSyn) (slot : Slot) (tr : FormatTrait)
    (a : FormatterArgs) (d : StyleDiff) :
    Stmt.arg slot tr a d ∈ stmtsFor names bare k t ↔ ∃ before ref spec after, t = before ++ .arg ref spec :: after ∧
      Stmt.arg slot tr a d =
        stmtFor names (bare + bareCount before) (k + (before.flatMap (captureOf names)).length) (.arg ref spec) := by
  induction t generalizing bare k with
  | nil => simp [stmtsFor]
  | cons p t ih =>
    simp only [stmtsFor, List.mem_cons, ih]
    constructor
    · rintro (h | ⟨before, ref, spec, after, rfl, h⟩)
      · rcases p with s | _ | _ | ⟨ref, spec⟩
        · cases h
        · cases h
        · cases h
        · exact ⟨[], ref, spec, t, rfl, by simpa [bareCount] using h⟩
      · refine ⟨p :: before, ref, spec, after, rfl, ?_⟩
        rw [h]
        congr 1
        · simp only [bareCount, List.countP_cons, bareOf]; omega
        · simp only [List.flatMap_cons, List.length_append]; omega
    · rintro ⟨before, ref, spec, after, ht, h⟩
      cases before with
      | nil =>
        cases ht
        left
        simpa [bareCount] using h
      | cons q before =>
        cases ht
        right
        refine ⟨before, ref, spec, after, rfl, ?_⟩
        rw [h]
        congr 1
        · simp only [bareCount, List.countP_cons, bareOf]; omega
        · simp only [List.flatMap_cons, List.length_append]; omega

theorem positionals_meaning {Z : Type} (g : X → Z) (args : List (MacroArg X)) :
    positionals (args.map (argMeaning g)) = (positionals args).map g := by
  induction args with
  | nil => rfl
  | cons a args ih =>
    cases a <;> simp only [positionals, List.map_cons, argMeaning, List.filterMap_cons] at ih ⊢ <;> rw [ih]

theorem nameds_meaning {Z : Type} (g : X → Z) (args : List (MacroArg X)) :
    nameds (args.map (argMeaning g)) = (nameds args).map fun p => (p.1, g p.2) := by
  induction args with
  | nil => rfl
  | cons a args ih =>
    cases a <;> simp only [nameds, List.map_cons, argMeaning, List.filterMap_cons] at ih ⊢ <;> rw [ih]

/-- What a slot of the tuples implements. -/
def SlotHas (x : Expansion X) (types : X → FormatTrait → Bool) (vars : Str → TypedVal) (tr : FormatTrait) : Slot → Prop
  | .positional i => ∀ e, x.positional[i]? = some e → types e tr = true
  | .named i => ∀ e, x.named[i]? = some e → types e tr = true
  | .implicit i => ∀ n, x.implicit[i]? = some n → (vars n).impls tr = true

theorem implements_iff' (x : Expansion X) (types : X → FormatTrait → Bool) (vars : Str → TypedVal) :
    Implements x types vars ↔ ∀ slot tr a d, Stmt.arg slot tr a d ∈ x.statements → SlotHas x types vars tr slot := by
  constructor
  · intro h slot tr a d hs
    have := h slot tr a d hs
    cases slot <;> exact this
  · intro h slot tr a d hs
    have := h slot tr a d hs
    cases slot <;> exact this

theorem slotHas_iff (args : List (MacroArg X)) (types : X → FormatTrait → Bool) (vars : Str → TypedVal)
    (before after : List PieceSyn) (ref : Option ArgRef) (spec : Option SpecSyn) (tr : FormatTrait)
    (hok : RefExists args before ref) :
    SlotHas (expansionOf args (before ++ .arg ref spec :: after)) types vars tr
      (slotFor ((nameds args).map Prod.fst) (bareCount before)
        (before.flatMap (captureOf ((nameds args).map Prod.fst))).length ref) ↔
    ∃ impls, valueFor (args.map (argMeaning types)) (fun n => (vars n).impls) before ref = some impls ∧ impls tr = true := by
  rcases ref with _ | ds | n
  · simp only [RefExists] at hok
    simp [slotFor, SlotHas, expansionOf, valueFor, positionals_meaning, hok]
  · simp only [RefExists] at hok
    simp [slotFor, SlotHas, expansionOf, valueFor, positionals_meaning, hok]
  · simp only [valueFor, lastNamed_eq, nameds_meaning, List.map_map, Function.comp_def, slotFor]
    have e : ((nameds args).map fun x => x.1) = (nameds args).map Prod.fst := rfl
    rw [e]
    rcases hi : namedIndex ((nameds args).map Prod.fst) n with _ | i
    · simp [SlotHas, expansionOf, captureOf, hi]
    · have hlt := namedIndex_lt _ _ _ hi
      simp only [List.length_map] at hlt
      simp [SlotHas, expansionOf, hlt]

/-- What the expansion demands of the types is what the format string says. -/
theorem implements_iff (args : List (MacroArg X)) (t : List PieceSyn) (hok : RefsOk args t)
    (types : X → FormatTrait → Bool) (vars : Str → TypedVal) :
    Implements (expansionOf args t) types vars ↔ TraitsMet (args.map (argMeaning types)) (fun n => (vars n).impls) t := by
  rw [implements_iff']
  constructor
  · intro h before ref spec after ht
    have := h _ _ _ _ ((mem_stmtsFor _ 0 0 t _ _ _ _).2 ⟨before, ref, spec, after, ht, rfl⟩)
    subst ht
    rw [Nat.zero_add, Nat.zero_add] at this
    exact (slotHas_iff args types vars before after ref spec _ (hok _ _ _ _ rfl).1).1 this
  · intro h slot tr a d hs
    obtain ⟨before, ref, spec, after, ht, hs'⟩ := (mem_stmtsFor _ 0 0 t _ _ _ _).1 hs
    have h1 := h before ref spec after ht
    clear hs
    subst ht
    rw [Nat.zero_add, Nat.zero_add] at hs'
    cases hs'
    exact (slotHas_iff args types vars before after ref spec _ (hok _ _ _ _ rfl).1).2 h1

/-- A captured variable is named by a placeholder. -/
theorem mem_captures (args : List (MacroArg X)) (t : List PieceSyn) (n : Str) (h : n ∈ (expansionOf args t).implicit) :
    ∃ before spec after, t = before ++ .arg (some (.name n)) spec :: after ∧ lastNamed args n = none := by
  obtain ⟨p, hp, hn⟩ := List.mem_flatMap.1 h
  obtain ⟨before, after, rfl⟩ := List.append_of_mem hp
  rcases p with s | _ | _ | ⟨_ | ds | m, spec⟩
  · simp [captureOf] at hn
  · simp [captureOf] at hn
  · simp [captureOf] at hn
  · simp [captureOf] at hn
  · simp [captureOf] at hn
  · simp only [captureOf] at hn
    split at hn
    · rename_i hi
      obtain rfl := List.mem_singleton.1 hn
      exact ⟨before, spec, after, rfl, by rw [lastNamed_eq, hi]; rfl⟩
    · cases hn

theorem lastNamed_meaning {Z : Type} (g : X → Z) (args : List (MacroArg X)) (n : Str) (h : lastNamed args n = none) :
    lastNamed (args.map (argMeaning g)) n = none := by
  rw [lastNamed_eq] at h ⊢
  have e : ((nameds (args.map (argMeaning g))).map Prod.fst) = (nameds args).map Prod.fst := by
    rw [nameds_meaning, List.map_map]; rfl
  rw [e]
  rcases hi : namedIndex ((nameds args).map Prod.fst) n with _ | i
  · rfl
  · rw [hi] at h
    have hlt := namedIndex_lt _ _ _ hi
    simp only [List.length_map] at hlt
    simp [hlt] at h

theorem dead_tuple {P : Scope → Prop} {t : RExpr Y} (h : Tokens.Dead P t) {es : List (RExpr Y)} (hm : t ∈ es) :
    Tokens.Dead P (.tuple es) := by
  intro St u sc st hp
  simp only [eval, Tokens.dead_list h hm u sc st hp, bind, Option.bind]

theorem dead_matchTuple_value {P : Scope → Prop} {e : RExpr Y} (h : Tokens.Dead P e) (xs : List Ident) (t : RExpr Y) :
    Tokens.Dead P (.matchTuple e xs t) := by
  intro St u sc st hp
  simp only [eval, h u sc st hp, bind, Option.bind]

/-- The generated code, where a captured variable does not exist. -/
def VarCode (t : RExpr Y) (x : Expansion Y) : Prop :=
  ∀ {St : Type} (u : UserExprs Y St) (sc : Scope) (st : St), (∃ n ∈ x.implicit, sc.lookup ⟨n, .callers⟩ = none) →
    eval u sc t st = none

theorem var_impl (E : Env) (input : ArgsInput Y) :
    Tokens.Agree VarCode (Tokens.formatArgsImpl E input) (formatArgsImpl E input) := by
  unfold Tokens.formatArgsImpl formatArgsImpl
  refine Tokens.Agree.bind (Tokens.agree_refl (P := (· = ·)) _ (fun _ => rfl)) ?_
  rintro ps _ rfl
  refine Tokens.Agree.bind (Tokens.dead_pieces_trait _ _ _ _) ?_
  rintro ⟨ts, gs⟩ ⟨ss, _⟩ ⟨rfl, -⟩
  simp only
  split
  · exact rfl
  · intro St u sc st ⟨n, hn, hl⟩
    have hd : Tokens.Dead (Y := Y) (fun s => s = sc) (.ident ⟨n, .callers⟩) := by
      rintro St u sc' st rfl
      simp only [eval, hl, Option.map_none]
    have hm : RExpr.ref (Y := Y) (.ident ⟨n, .callers⟩) ∈
        gs.implicit.map fun name => RExpr.ref (.ident ⟨name, .callers⟩) := List.mem_map_of_mem hn
    exact Tokens.dead_struct (Tokens.dead_ref (dead_matchTuple_value (dead_tuple (dead_tuple (Tokens.dead_ref hd) hm)
      (List.mem_cons_of_mem _ (List.mem_cons_of_mem _ (List.mem_singleton.2 rfl)))) _ _)) _ _
      (List.mem_singleton.2 rfl) u sc st rfl

theorem compiles_core {E : Env} (hE : E.Lawful) (format : Str) (args : List (MacroArg (SynExpr Y))) (toks : List (Tok Y))
    (code : Except CallError (RExpr (SynExpr Y))) (x : Except CallError (Expansion (SynExpr Y)))
    (hc : (code = Tokens.formatArgsCall E toks ∧ x = formatArgsCall E toks) ∨
      (code = Tokens.formatArgsNlCall E toks ∧ x = formatArgsNlCall E toks))
    (h48 : x = laterPhase (formatArgsMacro E format args))
    (sc : Scope) (hsc : CallSite sc) (hsome : PreludeSome sc) (hdef : PreludeDefault sc)
    (u : UserExprs (SynExpr Y) St) (m : SynExpr Y → Expr St) (types : SynExpr Y → FormatTrait → Bool)
    (hu : ExprsMean u sc m types)
    (vars : Str → Option TypedVal) (hv : ∀ n, sc.lookup ⟨n, .callers⟩ = (vars n).map .arg) (st : St) :
    (∃ t r, code = .ok t ∧ eval u sc t st = some r) ↔
    ∃ tree, Reads E format tree ∧ PositionalFirst args ∧ RefsOk args tree ∧ AllUsed args tree ∧
      TraitsMet (args.map (argMeaning types)) (fun n tr => (vars n).any fun v => v.impls tr) tree := by
  let vars' : Str → TypedVal := fun n => (vars n).getD ⟨noScope n, fun _ => false⟩
  have himpls : (fun n tr => (vars n).any fun v => v.impls tr) = fun n => (vars' n).impls := by
    funext n tr
    simp only [vars']
    cases vars n <;> rfl
  rw [himpls]
  have hsame : ∀ e, code = .error e ↔ x = .error e := by
    intro e
    rcases hc with ⟨rfl, rfl⟩ | ⟨rfl, rfl⟩
    · exact (C74_same_errors E toks e).1
    · exact (C74_same_errors E toks e).2
  have hok : ∀ {t y}, code = .ok t → x = .ok y →
      (Tokens.formatArgsCall E toks = .ok t ∧ formatArgsCall E toks = .ok y) ∨
      (Tokens.formatArgsNlCall E toks = .ok t ∧ formatArgsNlCall E toks = .ok y) := by
    intro t y ht hy
    rcases hc with ⟨h1, h2⟩ | ⟨h1, h2⟩
    · exact .inl ⟨h1.symm.trans ht, h2.symm.trans hy⟩
    · exact .inr ⟨h1.symm.trans ht, h2.symm.trans hy⟩
  have herr : ∀ {e}, formatArgsMacro E format args = .error e → ∀ t, code ≠ .ok t := by
    intro e he t ht
    rw [he] at h48
    rw [(hsame (.later e)).2 h48] at ht
    cases ht
  constructor
  · rintro ⟨t, r, ht, hr⟩
    by_cases htree : ∃ tree, Reads E format tree
    · obtain ⟨tree, hprint, hd, hs⟩ := htree
      subst hprint
      rcases formatArgsMacro_tree hE args tree hd hs with ⟨⟨h1, h2, h3⟩, hx⟩ | ⟨-, e, he, -⟩
      · refine ⟨tree, ⟨rfl, hd, hs⟩, h1, h2, h3, ?_⟩
        rw [hx] at h48
        have hcall := hok ht h48
        have hpres : ∀ n ∈ (expansionOf args tree).implicit, sc.lookup ⟨n, .callers⟩ = some (.arg (vars' n)) := by
          intro n hn
          have := hv n
          rcases hvn : vars n with _ | v
          · rw [hvn] at this
            rw [of_call (P := VarCode) (var_impl E) hcall u sc st ⟨n, hn, this⟩] at hr
            cases hr
          · rw [this, hvn]
            simp only [vars', hvn]
            rfl
        exact (implements_iff args tree h2 types vars').1
          ((C76_traits E toks t _ hcall sc hsc hsome hdef u m types hu vars' hpres st).1 ⟨r, hr⟩)
      · exact absurd ht (herr he t)
    · rcases formatArgsMacro_no_tree hE format args htree with ⟨-, e⟩ | ⟨-, e⟩ | ⟨-, e⟩ <;> exact absurd ht (herr e t)
  · rintro ⟨tree, ⟨hprint, hd, hs⟩, h1, h2, h3, h4⟩
    subst hprint
    rcases formatArgsMacro_tree hE args tree hd hs with ⟨-, hx⟩ | ⟨hn, -⟩
    · rw [hx] at h48
      have hpres : ∀ n ∈ (expansionOf args tree).implicit, sc.lookup ⟨n, .callers⟩ = some (.arg (vars' n)) := by
        intro n hn
        obtain ⟨before, spec, after, hb, hl⟩ := mem_captures args tree n hn
        obtain ⟨impls, hi, ht⟩ := h4 before _ spec after hb
        simp only [valueFor, lastNamed_meaning types args n hl, Option.getD_none] at hi
        cases hi
        rw [hv n]
        rcases hvn : vars n with _ | v
        · simp only [vars', hvn] at ht
          cases ht
        · simp only [vars', hvn]
          rfl
      rcases ht : code with e | t
      · rw [(hsame e).1 ht] at h48
        cases h48
      · obtain ⟨r, hr⟩ := (C76_traits E toks t _ (hok ht h48) sc hsc hsome hdef u m types hu vars' hpres st).2
          ((implements_iff args tree h2 types vars').2 h4)
        exact ⟨t, r, rfl, hr⟩
    · exact absurd ⟨h1, h2, h3⟩ hn

theorem text_traits (args : List (MacroArg (FormatTrait → Bool))) (vars : Str → FormatTrait → Bool) (t : List PieceSyn)
    (s : Str) : TraitsMet args vars (t ++ [.text s]) ↔ TraitsMet args vars t := by
  constructor
  · intro h before ref spec after e
    exact h before ref spec (after ++ [.text s]) (by rw [e]; simp)
  · intro h before ref spec after e
    obtain ⟨after', e', -⟩ := split_last_text t before after s ref spec e
    exact h before ref spec after' e'

theorem addNl_traits (args : List (MacroArg (FormatTrait → Bool))) (vars : Str → FormatTrait → Bool) (t : List PieceSyn) :
    TraitsMet args vars (addNl t) ↔ TraitsMet args vars t := by
  obtain ⟨u, ⟨rfl, h⟩ | ⟨s, rfl, h⟩⟩ := addNl_split t
  · rw [h, text_traits]
  · rw [h, text_traits, text_traits]

/-! ## C76 -/

/-- C76: a call compiles exactly if it is accepted by the macro and the type of each argument, and of each variable,
which has to exist, implements the traits of the placeholders it is shown by. -/
theorem C76_compiles_iff {E : Env} (hE : E.Lawful) (lead : Bool) (segs : List PathSegment) (format : Str)
    (ps : List (Tok Y × MacroArg (SynExpr Y))) (hp : ∀ p ∈ ps, ReadsAs p.1 p.2) (trailing : Bool)
    (sc : Scope) (hsc : CallSite sc) (hsome : PreludeSome sc) (hdef : PreludeDefault sc)
    (u : UserExprs (SynExpr Y) St) (m : SynExpr Y → Expr St) (types : SynExpr Y → FormatTrait → Bool)
    (hu : ExprsMean u sc m types)
    (vars : Str → Option TypedVal) (hv : ∀ n, sc.lookup ⟨n, .callers⟩ = (vars n).map .arg) (st : St) :
    (∃ t r, Tokens.formatArgsCall E (callTokens lead segs format (ps.map Prod.fst) trailing) = .ok t ∧
      eval u sc t st = some r) ↔
    ∃ tree, Reads E format tree ∧ PositionalFirst (ps.map Prod.snd) ∧ RefsOk (ps.map Prod.snd) tree ∧
      AllUsed (ps.map Prod.snd) tree ∧
      TraitsMet ((ps.map Prod.snd).map (argMeaning types)) (fun n tr => (vars n).any fun v => v.impls tr) tree :=
  compiles_core hE format (ps.map Prod.snd) _ _ _ (.inl ⟨rfl, rfl⟩)
    (C48_read_as_written E lead segs format ps hp trailing).1 sc hsc hsome hdef u m types hu vars hv st

/-- C76: the same for the macros that end the line, with the same condition. -/
theorem C76_compiles_nl_iff {E : Env} (hE : E.Lawful) (lead : Bool) (segs : List PathSegment) (format : Str)
    (ps : List (Tok Y × MacroArg (SynExpr Y))) (hp : ∀ p ∈ ps, ReadsAs p.1 p.2) (trailing : Bool)
    (sc : Scope) (hsc : CallSite sc) (hsome : PreludeSome sc) (hdef : PreludeDefault sc)
    (u : UserExprs (SynExpr Y) St) (m : SynExpr Y → Expr St) (types : SynExpr Y → FormatTrait → Bool)
    (hu : ExprsMean u sc m types)
    (vars : Str → Option TypedVal) (hv : ∀ n, sc.lookup ⟨n, .callers⟩ = (vars n).map .arg) (st : St) :
    (∃ t r, Tokens.formatArgsNlCall E (callTokens lead segs format (ps.map Prod.fst) trailing) = .ok t ∧
      eval u sc t st = some r) ↔
    ∃ tree, Reads E format tree ∧ PositionalFirst (ps.map Prod.snd) ∧ RefsOk (ps.map Prod.snd) tree ∧
      AllUsed (ps.map Prod.snd) tree ∧
      TraitsMet ((ps.map Prod.snd).map (argMeaning types)) (fun n tr => (vars n).any fun v => v.impls tr) tree := by
  rw [compiles_core hE (format ++ ['\n']) (ps.map Prod.snd) _ _ _ (.inr ⟨rfl, rfl⟩)
    ((C48_read_as_written E lead segs format ps hp trailing).2.trans (by rw [formatArgsNlMacro_eq])) sc hsc hsome hdef u m
    types hu vars hv st]
  constructor
  · rintro ⟨t', ⟨h1, hd, hs⟩, hpf, hr, hau, ht⟩
    obtain ⟨t, rfl, h2, h3, h4⟩ := addNl_surj E t' format h1 hd hs
    obtain ⟨h5, h6⟩ := (addNl_accept _ t).1 ⟨hr, hau⟩
    exact ⟨t, ⟨h2, h3, h4⟩, hpf, h5, h6, (addNl_traits _ _ t).1 ht⟩
  · rintro ⟨t, ⟨rfl, hd, hs⟩, hpf, hr, hau, ht⟩
    obtain ⟨h1, h2⟩ := addNl_good E t hd hs
    obtain ⟨h5, h6⟩ := (addNl_accept _ t).2 ⟨hr, hau⟩
    exact ⟨addNl t, ⟨addNl_print t, h1, h2⟩, hpf, h5, h6, (addNl_traits _ _ t).2 ht⟩

/-! ## Examples -/

/-- A place with one variable `x`. -/
def oneVariable : Scope where
  locals := [(⟨str "x", .callers⟩, .arg ⟨textArg (str "mine"), onlyDisplay⟩)]
  items n := if n = str "Some" then some (.constructor fnSome) else none
  defaultTrait := true

theorem oneVariable_lookup (n : Str) : oneVariable.lookup ⟨n, .callers⟩ =
    (if n = str "x" then some ⟨textArg (str "mine"), onlyDisplay⟩ else none : Option TypedVal).map .arg := by
  simp only [Scope.lookup, oneVariable, List.lookup_cons, List.lookup_nil]
  by_cases hn : n = str "x"
  · subst hn
    simp
  · have h1 : ((⟨n, .callers⟩ : Ident) == ⟨str "x", .callers⟩) = false := by
      simp only [beq_eq_false_iff_ne, ne_eq, Ident.mk.injEq, and_true]
      exact hn
    rw [if_neg hn, h1]
    by_cases h2 : n = str "Some"
    · rw [if_pos h2]; rfl
    · rw [if_neg h2]; rfl

theorem oneVariable_place : CallSite oneVariable ∧ PreludeSome oneVariable ∧ PreludeDefault oneVariable :=
  ⟨⟨by decide +kernel, by decide +kernel⟩, by simp only [PreludeSome, oneVariable, if_pos], rfl⟩

/-- C76_compiles_iff applies to `format_args!("{x}{a}{}", one, a = two)` in this place: both sides are true. -/
example : (runAt oneVariable (callOf "{x}{a}{}")).isSome ∧
    TraitsMet ((sampleArgs.map Prod.snd).map (argMeaning fun _ => onlyDisplay)) (fun n tr => decide (n = str "x") && onlyDisplay tr)
      [.arg (some (.name (str "x"))) none, .arg (some (.name (str "a"))) none, .arg none none] := by
  refine ⟨by decide +kernel, ?_⟩
  intro before ref spec after h
  rcases before with _ | ⟨p, _ | ⟨q, _ | ⟨r, _ | ⟨s, before⟩⟩⟩⟩ <;> simp only [List.nil_append, List.cons_append] at h <;>
    cases h
  · exact ⟨_, rfl, by decide +kernel⟩
  · exact ⟨onlyDisplay, by simp [valueFor, lastNamed, nameds, sampleArgs, argMeaning], rfl⟩
  · exact ⟨_, rfl, rfl⟩

/-- And to one where both are false: `x` does not implement `core::fmt::Debug`, and there is no variable `y`. -/
example : runAt oneVariable (callOf "{x:?}{a}{}") = none ∧ runAt oneVariable (callOf "{y}{a}{}") = none := by
  decide +kernel

end Stylish.Props
