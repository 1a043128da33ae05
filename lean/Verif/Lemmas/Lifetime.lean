import Verif.Lemmas.Ownership
import Verif.Spec.Lifetime
/-
What the value made by the generated code refers to.
-/

namespace Stylish.Tokens

open Format Rust Spec Spec.Lifetime Props

variable {Y : Type}

/-! ## What is captured is mentioned -/

mutual
theorem captures_mentioned : ∀ (e : RExpr Y) (x : Ident) (n : Option Nat), (x, n) ∈ captures e →
    Ownership.Thing.var x ∈ Ownership.mentions e
  | .ident i, x, n, h => by
    unfold captures at h
    unfold Ownership.mentions
    simp only [List.mem_singleton, Prod.mk.injEq] at h
    simp [h.1]
  | .ref e, x, n, h => by
    unfold captures at h; unfold Ownership.mentions; exact captures_mentioned e x n h
  | .refMut e, x, n, h => by
    unfold captures at h; unfold Ownership.mentions; exact captures_mentioned e x n h
  | .tuple es, x, n, h => by
    unfold captures at h; unfold Ownership.mentions; exact capturesAll_mentioned es x n h
  | .field e k, x, n, h => by
    unfold Ownership.mentions
    cases e with
    | ident i =>
      unfold captures at h
      unfold Ownership.mentions
      simp only [List.mem_singleton, Prod.mk.injEq] at h
      simp [h.1]
    | _ => unfold captures at h; exact captures_mentioned _ x n h
  | .call f args, x, n, h => by
    cases f with
    | ident i => unfold captures at h; unfold Ownership.mentions; exact capturesAll_mentioned args x n h
    | _ =>
      unfold captures at h; unfold Ownership.mentions
      rcases List.mem_append.1 h with h | h
      · exact List.mem_append_left _ (captures_mentioned _ x n h)
      · exact List.mem_append_right _ (capturesAll_mentioned args x n h)
  | .struct _ _ values, x, n, h => by
    unfold captures at h; unfold Ownership.mentions; exact capturesAll_mentioned values x n h
  | .letMut y e rest, x, n, h => by
    unfold captures at h; unfold Ownership.mentions
    rcases List.mem_append.1 h with h | h
    · exact List.mem_append_left _ (captures_mentioned e x n h)
    · obtain ⟨h1, h2⟩ := List.mem_filter.1 h
      refine List.mem_append_right _ (List.mem_filter.2 ⟨captures_mentioned rest x n h1, ?_⟩)
      simpa [List.contains_eq_mem] using h2
  | .setField y f e rest, x, n, h => by
    unfold captures at h; unfold Ownership.mentions
    rcases List.mem_append.1 h with h | h
    · exact List.mem_append_left _ (captures_mentioned e x n h)
    · rcases List.mem_cons.1 h with h | h
      · simp only [Prod.mk.injEq] at h
        simp [h.1]
      · exact List.mem_append_right _ (List.mem_cons_of_mem _ (captures_mentioned rest x n h))
  | .matchIdent e y rest, x, n, h => by
    unfold captures at h; unfold Ownership.mentions
    rcases List.mem_append.1 h with h | h
    · exact List.mem_append_left _ (captures_mentioned e x n h)
    · obtain ⟨h1, h2⟩ := List.mem_filter.1 h
      refine List.mem_append_right _ (List.mem_filter.2 ⟨captures_mentioned rest x n h1, ?_⟩)
      simpa [List.contains_eq_mem] using h2
  | .matchTuple e ys rest, x, n, h => by
    unfold captures at h; unfold Ownership.mentions
    rcases List.mem_append.1 h with h | h
    · exact List.mem_append_left _ (captures_mentioned e x n h)
    · obtain ⟨h1, h2⟩ := List.mem_filter.1 h
      refine List.mem_append_right _ (List.mem_filter.2 ⟨captures_mentioned rest x n h1, ?_⟩)
      simpa [List.contains_eq_mem] using h2
  | .closure y _ body, x, n, h => by
    unfold captures at h; unfold Ownership.mentions
    obtain ⟨h1, h2⟩ := List.mem_filter.1 h
    refine List.mem_filter.2 ⟨captures_mentioned body x n h1, ?_⟩
    simpa [List.contains_eq_mem] using h2
  | .tryThen e rest, x, n, h => by
    unfold captures at h; unfold Ownership.mentions
    rcases List.mem_append.1 h with h | h
    · exact List.mem_append_left _ (captures_mentioned e x n h)
    · exact List.mem_append_right _ (captures_mentioned rest x n h)
  | .export _, x, n, h => by unfold captures at h; cases h
  | .lit _, x, n, h => by unfold captures at h; cases h
  | .num _, x, n, h => by unfold captures at h; cases h
  | .bool _, x, n, h => by unfold captures at h; cases h
  | .user _, x, n, h => by unfold captures at h; cases h
theorem capturesAll_mentioned : ∀ (es : List (RExpr Y)) (x : Ident) (n : Option Nat), (x, n) ∈ capturesAll es →
    Ownership.Thing.var x ∈ Ownership.mentionsAll es
  | [], x, n, h => by unfold capturesAll at h; cases h
  | e :: es, x, n, h => by
    unfold capturesAll at h; unfold Ownership.mentionsAll
    rcases List.mem_append.1 h with h | h
    · exact List.mem_append_left _ (captures_mentioned e x n h)
    · exact List.mem_append_right _ (capturesAll_mentioned es x n h)
end

/-! ## Every placeholder captures its argument -/

/-- The part of a tuple an argument is. -/
def slotPlace : Slot → Ident × Option Nat
  | .positional i => (ours "__stylish_positional_args", some i)
  | .named i => (ours "__stylish_named_args", some i)
  | .implicit i => (ours "__stylish_implicit_named_args", some i)

theorem captures_slot (s : Slot) : captures (Y := Y) (slot s) = [slotPlace s] := by
  cases s <;> (unfold slot captures; rfl)

theorem captures_arg (tr : FormatTrait) (s : Slot) (t : RExpr Y) (h : arg tr (slot s) = .ok t) :
    slotPlace s ∈ captures t := by
  have hs : slotPlace s ∈ captures (Y := Y) (slot s) := by rw [captures_slot]; simp
  have key : ∀ (p : String) (x : Ident) (r : RExpr Y),
      slotPlace s ∈ captures (.call (path [p]) [.struct [str "StdFmt"] [str "f"] [.ref (.matchIdent (slot s) x r)]]) := by
    intro p x r
    unfold path captures
    apply List.mem_append_right
    unfold capturesAll captures capturesAll captures captures
    exact List.mem_append_left _ (List.mem_append_left _ (List.mem_append_left _ hs))
  cases tr
  case Stylish => obtain rfl := Except.ok.inj h; exact hs
  all_goals
    obtain rfl := Except.ok.inj h
    exact key _ _ _

theorem captures_none (e : RExpr Y) (h : Names [] e) : captures e = [] := by
  apply List.eq_nil_iff_forall_not_mem.2
  rintro ⟨x, n⟩ hx
  have hm := captures_mentioned _ _ _ hx
  unfold Names Ownership.without at h
  rw [List.filter_eq_nil_iff] at h
  exact h _ hm rfl

theorem captures_arg_only (tr : FormatTrait) (s : Slot) (t : RExpr Y) (h : arg tr (slot s) = .ok t) :
    ∀ p ∈ captures t, p = slotPlace s := by
  have key : ∀ (name p : String), captures (Y := Y) (.call (path [p]) [.struct [str "StdFmt"] [str "f"] [
      .ref (.matchIdent (slot s) (ours "__stylish_arg")
        (.closure (ours "__stylish_formatter") [str "fmt", str "Formatter"]
          (.call (path ["fmt", name, "fmt"])
            [.ident (ours "__stylish_arg"), .ident (ours "__stylish_formatter")])))]]) = [slotPlace s] := by
    intro name p
    simp [path, captures, capturesAll, captures_slot]
  cases tr
  case Stylish =>
    obtain rfl := Except.ok.inj h
    rw [captures_slot]
    simp
  all_goals
    obtain rfl := Except.ok.inj h
    rw [key]
    simp

/-- A placeholder captures its argument, and nothing else but the formatter. -/
theorem captures_piece (n : Nat) (names : List Str) (st : GenState) (a : FormatArg) (r : RExpr Y × GenState)
    (h : piece n names st (.Arg a) = .ok r) :
    ∃ s, resolveRef n names st a.arg = .ok (s, r.2) ∧ slotPlace s ∈ captures r.1 ∧
      ∀ p ∈ captures r.1, p = slotPlace s ∨ p.1 = ours "__stylish_formatter" := by
  unfold piece at h
  simp only [bind, Except.bind] at h
  split at h
  · cases h
  rename_i r1 e1
  split at h
  · cases h
  rename_i t1 h1
  split at h
  · cases h
  rename_i t2 h2
  split at h
  · cases h
  rename_i t3 h3
  obtain rfl := Except.ok.inj h
  refine ⟨r1.1, e1, ?_, ?_⟩
  · unfold path captures
    apply List.mem_append_right
    unfold capturesAll captures
    exact List.mem_append_left _ (captures_arg _ _ _ h1)
  · have c2 := captures_none _ (names_formatterArgs [] _ _ h2)
    have c3 := captures_none _ (names_styleDiff [] _ _ h3)
    intro p hp
    simp only [path, captures, capturesAll, c2, c3, List.nil_append, List.append_nil, List.mem_append,
      List.mem_singleton] at hp
    rcases hp with hp | rfl
    · exact .inl (captures_arg_only _ _ _ h1 p hp)
    · exact .inr rfl

/-- The slots the macro uses. -/
def UsedSlot (names : List Str) : Slot → Prop
  | .named i => ∃ m, namedIndex names m = some i
  | _ => True

theorem usedSlot_resolve (n : Nat) (names : List Str) (st : GenState) (ref : Option FormatArgRef) (r : Slot × GenState)
    (h : resolveRef n names st ref = .ok r) : UsedSlot names r.1 := by
  unfold resolveRef at h
  split at h
  · split at h
    · obtain rfl := Except.ok.inj h; trivial
    · cases h
  · split at h
    · cases h
    · obtain rfl := Except.ok.inj h; trivial
  · split at h
    · rename_i i hi
      obtain rfl := Except.ok.inj h
      exact ⟨_, hi⟩
    · split at h
      · obtain rfl := Except.ok.inj h; trivial
      · cases h

theorem captures_pieces (n : Nat) (names : List Str) (ps : List Piece) (st : GenState) (r : List (RExpr Y) × GenState)
    (h : pieces n names st ps = .ok r) :
    ∀ p ∈ captures (body r.1), (∃ s, p = slotPlace s ∧ UsedSlot names s) ∨ p.1 = ours "__stylish_formatter" := by
  induction ps generalizing st r with
  | nil =>
    obtain rfl := Except.ok.inj h
    intro p hp
    simp [body, path, captures, capturesAll] at hp
  | cons q ps ih =>
    unfold pieces at h
    simp only [bind, Except.bind] at h
    split at h
    · cases h
    rename_i r1 h1
    split at h
    · cases h
    rename_i r2 h2
    obtain rfl := Except.ok.inj h
    intro p hp
    unfold body captures at hp
    rcases List.mem_append.1 hp with hp | hp
    · cases q with
      | Lit l =>
        obtain rfl := Except.ok.inj h1
        simp only [path, captures, capturesAll, List.nil_append, List.append_nil, List.mem_singleton] at hp
        subst hp
        exact .inr rfl
      | Arg a =>
        obtain ⟨s, hs, -, hc⟩ := captures_piece n names st a r1 h1
        rcases hc p hp with rfl | h
        · exact .inl ⟨s, rfl, usedSlot_resolve _ _ _ _ _ hs⟩
        · exact .inr h
    · exact ih _ _ h2 p hp

/-- What was noted as used is captured. -/
def NotedCaptured (names : List Str) (places : List (Ident × Option Nat)) (st st' : GenState) : Prop :=
  (∀ i ∈ st'.usedPositional, i ∈ st.usedPositional ∨ slotPlace (.positional i) ∈ places) ∧
  (∀ m ∈ st'.usedNamed, m ∈ st.usedNamed ∨ ∃ i, namedIndex names m = some i ∧ slotPlace (.named i) ∈ places)

theorem noted_piece (n : Nat) (names : List Str) (st : GenState) (p : Piece) (r : RExpr Y × GenState)
    (h : piece n names st p = .ok r) : NotedCaptured names (captures r.1) st r.2 := by
  cases p with
  | Lit l =>
    obtain rfl := Except.ok.inj h
    exact ⟨fun _ h => .inl h, fun _ h => .inl h⟩
  | Arg a =>
    obtain ⟨s, hs, hc, -⟩ := captures_piece n names st a r h
    generalize a.arg = ref at hs
    rcases ref with _ | i | m
    · unfold resolveRef at hs
      simp only at hs
      split at hs
      · simp only [Except.ok.injEq, Prod.mk.injEq] at hs
        obtain ⟨rfl, hst⟩ := hs
        rw [← hst]
        refine ⟨fun i hi => ?_, fun _ h => .inl h⟩
        rcases List.mem_append.1 hi with hi | hi
        · exact .inl hi
        · obtain rfl := List.mem_singleton.1 hi
          exact .inr hc
      · cases hs
    · unfold resolveRef at hs
      simp only at hs
      split at hs
      · cases hs
      · simp only [Except.ok.injEq, Prod.mk.injEq] at hs
        obtain ⟨rfl, hst⟩ := hs
        rw [← hst]
        refine ⟨fun i hi => ?_, fun _ h => .inl h⟩
        rcases List.mem_append.1 hi with hi | hi
        · exact .inl hi
        · obtain rfl := List.mem_singleton.1 hi
          exact .inr hc
    · unfold resolveRef at hs
      simp only at hs
      split at hs
      · rename_i i hi
        simp only [Except.ok.injEq, Prod.mk.injEq] at hs
        obtain ⟨rfl, hst⟩ := hs
        rw [← hst]
        refine ⟨fun _ h => .inl h, fun m' hm => ?_⟩
        rcases List.mem_append.1 hm with hm | hm
        · exact .inl hm
        · obtain rfl := List.mem_singleton.1 hm
          exact .inr ⟨i, hi, hc⟩
      · split at hs
        · simp only [Except.ok.injEq, Prod.mk.injEq] at hs
          obtain ⟨rfl, hst⟩ := hs
          rw [← hst]
          exact ⟨fun _ h => .inl h, fun _ h => .inl h⟩
        · cases hs

theorem noted_pieces (n : Nat) (names : List Str) (ps : List Piece) (st : GenState) (r : List (RExpr Y) × GenState)
    (h : pieces n names st ps = .ok r) : NotedCaptured names (captures (body r.1)) st r.2 := by
  induction ps generalizing st r with
  | nil =>
    obtain rfl := Except.ok.inj h
    exact ⟨fun _ h => .inl h, fun _ h => .inl h⟩
  | cons p ps ih =>
    unfold pieces at h
    simp only [bind, Except.bind] at h
    split at h
    · cases h
    rename_i r1 h1
    split at h
    · cases h
    rename_i r2 h2
    obtain rfl := Except.ok.inj h
    have k1 := noted_piece _ _ _ _ _ h1
    have k2 := ih _ _ h2
    unfold body captures
    refine ⟨fun i hi => ?_, fun m hm => ?_⟩
    · rcases k2.1 i hi with h | h
      · rcases k1.1 i h with h | h
        · exact .inl h
        · exact .inr (List.mem_append_left _ h)
      · exact .inr (List.mem_append_right _ h)
    · rcases k2.2 m hm with h | ⟨i, h, hp⟩
      · rcases k1.2 m h with h | ⟨i, h, hp⟩
        · exact .inl h
        · exact .inr ⟨i, h, List.mem_append_left _ hp⟩
      · exact .inr ⟨i, h, List.mem_append_right _ hp⟩

/-! ## What the tuples of arguments refer to -/

theorem mem_allOf {hs : List Held} {l : Life} : l ∈ Held.allOf hs ↔ ∃ h ∈ hs, l ∈ h.all := by
  induction hs with
  | nil => unfold Held.allOf; simp
  | cons h hs ih => unfold Held.allOf; simp [ih]

theorem heldAll_map {A : Type} (s : Exprs Y) (ext plain : Life) (Γ : Vars) (f : A → RExpr Y) (as : List A) :
    heldAll s ext plain Γ (as.map f) = as.map fun a => held s ext plain Γ (f a) := by
  induction as with
  | nil => rfl
  | cons a as ih =>
    show heldAll s ext plain Γ (f a :: as.map f) = _
    unfold heldAll
    rw [ih]
    rfl

theorem part_mem {h : Held} {l : Life} {i : Nat} (hl : l ∈ (h.part i).all) : l ∈ h.all := by
  cases h with
  | one ls => exact hl
  | tuple ps =>
    unfold Held.all
    change l ∈ (ps.getD i (.one [])).all at hl
    rw [List.getD_eq_getElem?_getD] at hl
    rcases e : ps[i]? with _ | p
    · rw [e] at hl; simp [Held.all] at hl
    · rw [e] at hl
      exact mem_allOf.2 ⟨p, List.mem_of_getElem? e, hl⟩

theorem holds_mem {Γ : Vars} {x : Ident} {n : Option Nat} {l : Life} (hl : l ∈ (Γ.holds (x, n)).all) :
    l ∈ (Γ x).holds.all := by
  cases n with
  | none => exact hl
  | some n => exact part_mem hl

/-- What a reference to an argument refers to. -/
def argHeld (s : Exprs Y) (temp : Life) (e : Y) : Held :=
  .one [match s.source e with | .place => .block | .constant => .always | .temporary => temp,
    if s.borrows e then temp else .block]

theorem held_refUser (s : Exprs Y) (temp : Life) (Γ : Vars) (e : Y) :
    held s temp temp Γ (.ref (.user e)) = argHeld s temp e := by
  unfold held home held Held.all
  rfl

theorem held_refVar (s : Exprs Y) (temp : Life) (x : Ident) :
    held s temp temp callersVars (.ref (.ident x)) = .one [.block, .block] := by
  unfold held home held callersVars Held.all
  rfl

/-- The references made to the arguments. -/
def argsHeld (s : Exprs Y) (temp : Life) (input : ArgsInput Y) (vars : List Str) : List Held :=
  [.tuple (input.positionalArgs.map (argHeld s temp)), .tuple (input.namedArgs.map fun e => argHeld s temp e.2),
    .tuple (vars.map fun _ => .one [.block, .block])]

theorem held_scrutinee (s : Exprs Y) (temp : Life) (input : ArgsInput Y) (vars : List Str) :
    held s temp temp callersVars (.tuple [.tuple (input.positionalArgs.map fun e => .ref (.user e)),
      .tuple (input.namedArgs.map fun e => .ref (.user e.2)),
      .tuple (vars.map fun name => .ref (.ident ⟨name, .callers⟩))]) = .tuple (argsHeld s temp input vars) := by
  unfold held heldAll heldAll heldAll heldAll held
  rw [heldAll_map, heldAll_map, heldAll_map]
  simp only [held_refUser, held_refVar]
  rfl

/-- The variables in the closure. -/
def inClosure (s : Exprs Y) (temp : Life) (input : ArgsInput Y) (vars : List Str) : Vars :=
  callersVars.bindAll (.tuple (argsHeld s temp input vars)) 0 tuples

theorem inClosure_positional (s : Exprs Y) (temp : Life) (input : ArgsInput Y) (vars : List Str) :
    (inClosure s temp input vars (ours "__stylish_positional_args")).holds =
      .tuple (input.positionalArgs.map (argHeld s temp)) := rfl
theorem inClosure_named (s : Exprs Y) (temp : Life) (input : ArgsInput Y) (vars : List Str) :
    (inClosure s temp input vars (ours "__stylish_named_args")).holds =
      .tuple (input.namedArgs.map fun e => argHeld s temp e.2) := rfl
theorem inClosure_implicit (s : Exprs Y) (temp : Life) (input : ArgsInput Y) (vars : List Str) :
    (inClosure s temp input vars (ours "__stylish_implicit_named_args")).holds =
      .tuple (vars.map fun _ => .one [.block, .block]) := rfl

/-- What the value refers to: the closure, put into a temporary or a variable, and what is captured. -/
theorem held_impl (E : Env) (s : Exprs Y) (ext plain : Life) (input : ArgsInput Y) (t : RExpr Y)
    (h : formatArgsImpl E input = .ok t) :
    ∃ (vars : List Str) (b : RExpr Y),
      (held s ext plain callersVars t).all = ext ::
        ((captures b).filter fun p => p.1 ≠ ours "__stylish_formatter").flatMap
          (fun p => ((inClosure s plain input vars).holds p).all) ∧
      (∀ p ∈ captures b, (∃ s, p = slotPlace s ∧ UsedSlot (input.namedArgs.map Prod.fst) s) ∨
        p.1 = ours "__stylish_formatter") ∧
      (∀ i, i < input.positionalArgs.length → slotPlace (.positional i) ∈ captures b) ∧
      (∀ m ∈ input.namedArgs.map Prod.fst, ∃ i, namedIndex (input.namedArgs.map Prod.fst) m = some i ∧
        slotPlace (.named i) ∈ captures b) := by
  unfold formatArgsImpl at h
  simp only [bind, Except.bind] at h
  split at h
  · cases h
  split at h
  · cases h
  rename_i r hr
  split at h
  · cases h
  rename_i hu
  obtain rfl := Except.ok.inj h
  have hnoted := noted_pieces _ _ _ _ _ hr
  simp only [hasUnused, Bool.or_eq_true, List.any_eq_true, not_or, not_exists, not_and] at hu
  refine ⟨r.2.implicit, body r.1, ?_, ?_, ?_, ?_⟩
  · unfold held heldAll heldAll held home held held
    rw [held_scrutinee]
    simp only [Held.all, Held.allOf, List.append_nil]
    rfl
  · exact captures_pieces _ _ _ _ _ hr
  · intro i hi
    have h1 := hu.1 i (List.mem_range.2 hi)
    rcases hnoted.1 i (by simpa [List.contains_eq_mem] using h1) with h | h
    · cases h
    · exact h
  · intro m hm
    have h1 := hu.2 m hm
    rcases hnoted.2 m (by simpa [List.contains_eq_mem] using h1) with h | h
    · cases h
    · exact h

theorem part_map {A : Type} (f : A → Held) (as : List A) (i : Nat) (l : Life) :
    l ∈ ((Held.tuple (as.map f)).part i).all ↔ ∃ a, as[i]? = some a ∧ l ∈ (f a).all := by
  change l ∈ ((as.map f).getD i (.one [])).all ↔ _
  rw [List.getD_eq_getElem?_getD, List.getElem?_map]
  cases as[i]? with
  | none => simp [Held.all]
  | some a => simp

/-- What the value refers to: a temporary for the closure, the arguments that are used, and the variables. -/
theorem held_args (E : Env) (s : Exprs Y) (ext plain : Life) (input : ArgsInput Y) (t : RExpr Y)
    (h : formatArgsImpl E input = .ok t) :
    (∀ l ∈ (held s ext plain callersVars t).all,
      l = ext ∨ (∃ e ∈ input.positionalArgs, l ∈ (argHeld s plain e).all) ∨
      (∃ m i e, namedIndex (input.namedArgs.map Prod.fst) m = some i ∧ (input.namedArgs.map Prod.snd)[i]? = some e ∧
        l ∈ (argHeld s plain e).all) ∨ l = .block) ∧
    ext ∈ (held s ext plain callersVars t).all ∧
    (∀ e ∈ input.positionalArgs, ∀ l ∈ (argHeld s plain e).all, l ∈ (held s ext plain callersVars t).all) ∧
    (∀ m i e, namedIndex (input.namedArgs.map Prod.fst) m = some i → (input.namedArgs.map Prod.snd)[i]? = some e →
      ∀ l ∈ (argHeld s plain e).all, l ∈ (held s ext plain callersVars t).all) := by
  obtain ⟨vars, b, hall, honly, hpos, hnamed⟩ := held_impl E s ext plain input t h
  rw [hall]
  refine ⟨?_, by simp, ?_, ?_⟩
  · intro l hl
    rcases List.mem_cons.1 hl with rfl | hl
    · exact .inl rfl
    right
    obtain ⟨p, hp, hl⟩ := List.mem_flatMap.1 hl
    obtain ⟨hp, hne⟩ := List.mem_filter.1 hp
    rcases honly p hp with ⟨sl, rfl, hu⟩ | h
    · cases sl with
      | positional i =>
        change l ∈ ((inClosure s plain input vars (ours "__stylish_positional_args")).holds.part i).all at hl
        rw [inClosure_positional, part_map] at hl
        obtain ⟨e, he, hl⟩ := hl
        exact .inl ⟨e, List.mem_of_getElem? he, hl⟩
      | named i =>
        change l ∈ ((inClosure s plain input vars (ours "__stylish_named_args")).holds.part i).all at hl
        rw [inClosure_named, part_map] at hl
        obtain ⟨e, he, hl⟩ := hl
        obtain ⟨m, hm⟩ := hu
        exact .inr (.inl ⟨m, i, e.2, hm, by rw [List.getElem?_map, he]; rfl, hl⟩)
      | implicit i =>
        change l ∈ ((inClosure s plain input vars (ours "__stylish_implicit_named_args")).holds.part i).all at hl
        rw [inClosure_implicit, part_map] at hl
        obtain ⟨e, he, hl⟩ := hl
        exact .inr (.inr (by simpa [Held.all] using hl))
    · simp [h] at hne
  · intro e he l hl
    obtain ⟨i, hi, rfl⟩ := List.mem_iff_getElem.1 he
    refine List.mem_cons_of_mem _ (List.mem_flatMap.2 ⟨_, List.mem_filter.2 ⟨hpos i hi, decide_eq_true
      (show ours "__stylish_positional_args" ≠ ours "__stylish_formatter" by decide)⟩, ?_⟩)
    change l ∈ ((inClosure s plain input vars (ours "__stylish_positional_args")).holds.part i).all
    rw [inClosure_positional, part_map]
    exact ⟨_, List.getElem?_eq_getElem hi, hl⟩
  · intro m i e hm he l hl
    have hmem : m ∈ input.namedArgs.map Prod.fst := by
      apply Decidable.byContradiction
      intro hn
      rw [(namedIndex_none _ _).2 hn] at hm
      cases hm
    obtain ⟨i', hm', hp⟩ := hnamed m hmem
    obtain rfl : i = i' := by rw [hm] at hm'; exact Option.some.inj hm'
    refine List.mem_cons_of_mem _ (List.mem_flatMap.2 ⟨_, List.mem_filter.2 ⟨hp, decide_eq_true
      (show ours "__stylish_named_args" ≠ ours "__stylish_formatter" by decide)⟩, ?_⟩)
    change l ∈ ((inClosure s plain input vars (ours "__stylish_named_args")).holds.part i).all
    rw [inClosure_named, part_map]
    rw [List.getElem?_map] at he
    obtain ⟨e', he', rfl⟩ := Option.map_eq_some_iff.1 he
    exact ⟨_, he', hl⟩

end Stylish.Tokens
