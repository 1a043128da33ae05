import Verif.Lemmas.GrammarSpec
import Verif.Spec.Macro
/-
The code generator on syntax trees.
-/

namespace Stylish

open Nom Format Spec Spec.Syntax

/-! ### Tokens -/

theorem replaceDoubleOpen_id (s : Str) (h : '{' ∉ s) : replaceDoubleOpen s = s := by
  induction s with
  | nil => rfl
  | cons c s ih =>
    have hc : c ≠ '{' := by rintro rfl; exact h (by simp)
    have hs : '{' ∉ s := fun hm => h (by simp [hm])
    unfold replaceDoubleOpen
    split
    · rename_i heq; exact absurd (List.cons.inj heq).1 hc
    · rename_i c' r heq heq2
      obtain ⟨rfl, rfl⟩ := List.cons.inj heq2
      rw [ih hs]
    · rename_i heq; exact absurd heq (by simp)

theorem colorTokens_name (c : ColorName) : colorTokens c.color = .ok c.color := by cases c <;> rfl

theorem intensityTokens_ok (i : Intensity) : intensityTokens i = .ok i := by cases i <;> rfl

theorem styleDiffTokens_ok (d : StyleDiff)
    (hf : ∀ c, d.foreground = some c → colorTokens c = .ok c)
    (hb : ∀ c, d.background = some c → colorTokens c = .ok c) : styleDiffTokens d = .ok d := by
  rcases d with ⟨f, b, i⟩
  rcases f with _ | f <;> rcases b with _ | b <;> rcases i with _ | i
  all_goals
    simp only [Option.some.injEq, forall_eq', reduceCtorEq, false_imp_iff, implies_true] at hf hb
    simp [styleDiffTokens, hf, hb, intensityTokens_ok, StyleDiff.default, bind, Except.bind, pure,
      Except.pure]

theorem attrs_fg_mem (as : List Attr) (c : Color) (h : c ∈ as.filterMap Attr.fg?) :
    ∃ n : ColorName, c = n.color := by
  obtain ⟨a, -, ha⟩ := List.mem_filterMap.1 h
  cases a <;> simp [Attr.fg?] at ha
  exact ⟨_, ha.symm⟩

theorem attrs_bg_mem (as : List Attr) (c : Color) (h : c ∈ as.filterMap Attr.bg?) :
    ∃ n : ColorName, c = n.color := by
  obtain ⟨a, -, ha⟩ := List.mem_filterMap.1 h
  cases a <;> simp [Attr.bg?] at ha
  exact ⟨_, ha.symm⟩

theorem styleDiffTokens_attrs (as : List Attr) : styleDiffTokens (attrsDiff as) = .ok (attrsDiff as) := by
  apply styleDiffTokens_ok
  · intro c hc
    simp only [attrsDiff, Option.filter_eq_some_iff] at hc
    obtain ⟨n, rfl⟩ := attrs_fg_mem as c (List.mem_of_getLast? hc.1)
    exact colorTokens_name n
  · intro c hc
    simp only [attrsDiff, Option.filter_eq_some_iff] at hc
    obtain ⟨n, rfl⟩ := attrs_bg_mem as c (List.mem_of_getLast? hc.1)
    exact colorTokens_name n

theorem argTokens_ok (t : FormatTrait) : argTokens t = .ok t := by cases t <;> rfl

theorem alignTokens_ok (a : Option Align) : alignTokens a = a := by rcases a with _ | _ | _ | _ <;> rfl
theorem signTokens_ok (a : Option Sign) : signTokens a = a := by rcases a with _ | _ | _ <;> rfl
theorem debugHexTokens_ok (a : Option DebugHex) : debugHexTokens a = a := by
  rcases a with _ | _ | _ <;> rfl

theorem countTokens_width (w : Option CountSyn) :
    (∀ r, w ≠ some (.param r)) ∧ countTokens (w.map CountSyn.toCount) = .ok (w.bind CountSyn.literal) ∨
    (∃ r, w = some (.param r)) ∧ countTokens (w.map CountSyn.toCount) = .error .countParameterTodo := by
  rcases w with _ | _ | r
  · exact Or.inl ⟨by simp, rfl⟩
  · exact Or.inl ⟨by simp, rfl⟩
  · exact Or.inr ⟨⟨r, rfl⟩, rfl⟩

theorem countTokens_precision (w : Option PrecisionSyn) :
    (∀ r, w ≠ some (.count (.param r))) ∧
      countTokens (w.bind PrecisionSyn.toCount) = .ok (w.bind PrecisionSyn.literal) ∨
    (∃ r, w = some (.count (.param r))) ∧
      countTokens (w.bind PrecisionSyn.toCount) = .error .countParameterTodo := by
  rcases w with _ | (_ | r) | _
  · exact Or.inl ⟨by simp, rfl⟩
  · exact Or.inl ⟨by simp, rfl⟩
  · exact Or.inr ⟨⟨r, rfl⟩, rfl⟩
  · exact Or.inl ⟨by simp, rfl⟩

theorem formatterArgsTokens_spec (s : SpecSyn) :
    s.NoParams ∧ formatterArgsTokens s.toSpec.formatterArgs = .ok s.options ∨
    ¬ s.NoParams ∧ formatterArgsTokens s.toSpec.formatterArgs = .error .countParameterTodo := by
  have hw : s.toSpec.formatterArgs.width = s.width.map CountSyn.toCount := rfl
  have hp : s.toSpec.formatterArgs.precision = s.precision.bind PrecisionSyn.toCount := rfl
  unfold formatterArgsTokens
  rw [hw, hp]
  rcases countTokens_width s.width with ⟨h1, e1⟩ | ⟨⟨r, h1⟩, e1⟩
  · rcases countTokens_precision s.precision with ⟨h2, e2⟩ | ⟨⟨r, h2⟩, e2⟩
    · left
      refine ⟨⟨h1, h2⟩, ?_⟩
      rw [e1, e2, alignTokens_ok, signTokens_ok, debugHexTokens_ok]
      rfl
    · right
      refine ⟨fun h => h.2 r h2, ?_⟩
      rw [e1, e2]
      rfl
  · right
    refine ⟨fun h => h.1 r h1, ?_⟩
    rw [e1]
    rfl

/-! ### Statements of a tree -/

/-- The tuple field a reference becomes. -/
def slotFor (names : List Str) (bare k : Nat) : Option ArgRef → Slot
  | none => .positional bare
  | some (.index ds) => .positional (numeralValue ds)
  | some (.name n) =>
    match namedIndex names n with
    | some i => .named i
    | none => .implicit k

def stmtFor (names : List Str) (bare k : Nat) : PieceSyn → Stmt
  | .text s => .lit s
  | .openBrace => .lit ['{']
  | .closeBrace => .lit ['}']
  | .arg ref spec =>
    .arg (slotFor names bare k ref) (specOf spec).ty.trait (specOf spec).options
      (attrsDiff (specOf spec).attrList)

/-- The variable a piece captures. -/
def captureOf (names : List Str) : PieceSyn → List Str
  | .arg (some (.name n)) _ => if namedIndex names n = none then [n] else []
  | _ => []

def usedPosOf (bare : Nat) : PieceSyn → List Nat
  | .arg none _ => [bare]
  | .arg (some (.index ds)) _ => [numeralValue ds]
  | _ => []

def usedNameOf (names : List Str) : PieceSyn → List Str
  | .arg (some (.name n)) _ => if namedIndex names n = none then [] else [n]
  | _ => []

def bareOf (p : PieceSyn) : Nat := if p.isBare then 1 else 0

/-- The piece's reference exists, given the number of bare placeholders before it. -/
def RefOkAt (n : Nat) (names : List Str) (bare : Nat) : Option ArgRef → Prop
  | none => bare < n
  | some (.index ds) => numeralValue ds < n
  | some (.name m) => namedIndex names m ≠ none ∨ canBeRaw m = true

def PieceOk (n : Nat) (names : List Str) (bare : Nat) : PieceSyn → Prop
  | .arg ref spec => RefOkAt n names bare ref ∧ (specOf spec).NoParams
  | _ => True

/-- The compile errors of a placeholder. -/
def PieceError (n : Nat) (names : List Str) (bare : Nat) (p : PieceSyn) : CompileError → Prop
  | .missingArgument => ∃ spec, p = .arg none spec ∧ n ≤ bare
  | .missingPositional i => ∃ ds spec, p = .arg (some (.index ds)) spec ∧ i = numeralValue ds ∧ n ≤ i
  | .badRawIdent m => ∃ spec, p = .arg (some (.name m)) spec ∧ namedIndex names m = none ∧
      canBeRaw m = false
  | .countParameterTodo => ∃ ref spec, p = .arg ref spec ∧ ¬ (specOf spec).NoParams
  | _ => False

def stepState (names : List Str) (st : GenState) (p : PieceSyn) : GenState :=
  { implicit := st.implicit ++ captureOf names p
    usedPositional := st.usedPositional ++ usedPosOf st.next p
    usedNamed := st.usedNamed ++ usedNameOf names p
    next := st.next + bareOf p }

theorem toPiece_arg (ref : Option ArgRef) (spec : Option SpecSyn) :
    (PieceSyn.arg ref spec).toPiece = .Arg ⟨ref.map ArgRef.toRef, (specOf spec).toSpec⟩ := by
  cases spec <;> rfl

theorem resolveRef_tree (n : Nat) (names : List Str) (st : GenState) (ref : Option ArgRef)
    (spec : Option SpecSyn) :
    RefOkAt n names st.next ref ∧ resolveRef n names st (ref.map ArgRef.toRef) =
      .ok (slotFor names st.next st.implicit.length ref, stepState names st (.arg ref spec)) ∨
    ¬ RefOkAt n names st.next ref ∧ ∃ e, resolveRef n names st (ref.map ArgRef.toRef) = .error e ∧
      PieceError n names st.next (.arg ref spec) e := by
  rcases ref with _ | ds | m
  · by_cases h : st.next < n
    · left
      refine ⟨h, ?_⟩
      simp [resolveRef, h, slotFor, stepState, captureOf, usedPosOf, usedNameOf, bareOf, PieceSyn.isBare]
    · right
      exact ⟨h, .missingArgument, by simp [resolveRef, h], spec, rfl, by omega⟩
  · by_cases h : numeralValue ds < n
    · left
      refine ⟨h, ?_⟩
      have h' : ¬ numeralValue ds ≥ n := by omega
      simp [resolveRef, h', ArgRef.toRef, slotFor, stepState, captureOf, usedPosOf, usedNameOf, bareOf,
        PieceSyn.isBare]
    · right
      have h' : numeralValue ds ≥ n := by omega
      exact ⟨h, .missingPositional (numeralValue ds), by simp [resolveRef, ArgRef.toRef, h'], ds, spec, rfl, rfl,
        by omega⟩
  · rcases hm : namedIndex names m with _ | i
    · cases hr : canBeRaw m with
      | true =>
        left
        refine ⟨Or.inr hr, ?_⟩
        simp [resolveRef, ArgRef.toRef, hm, hr, slotFor, stepState, captureOf, usedPosOf, usedNameOf,
          bareOf, PieceSyn.isBare]
      | false =>
        right
        refine ⟨?_, .badRawIdent m, by simp [resolveRef, ArgRef.toRef, hm, hr], spec, rfl, hm, hr⟩
        rintro (h | h)
        · exact h hm
        · rw [hr] at h; cases h
    · left
      refine ⟨Or.inl (by simp [hm]), ?_⟩
      simp [resolveRef, ArgRef.toRef, hm, slotFor, stepState, captureOf, usedPosOf, usedNameOf,
          bareOf, PieceSyn.isBare]

theorem genPiece_tree (n : Nat) (names : List Str) (st : GenState) (p : PieceSyn)
    (hp : ∀ s, p = .text s → '{' ∉ s) :
    PieceOk n names st.next p ∧ genPiece n names st p.toPiece =
      .ok (stmtFor names st.next st.implicit.length p, stepState names st p) ∨
    ¬ PieceOk n names st.next p ∧ ∃ e, genPiece n names st p.toPiece = .error e ∧
      PieceError n names st.next p e := by
  cases p with
  | text s =>
    left
    refine ⟨trivial, ?_⟩
    simp [genPiece, PieceSyn.toPiece, replaceDoubleOpen_id s (hp s rfl), stmtFor, stepState, captureOf,
      usedPosOf, usedNameOf, bareOf, PieceSyn.isBare]
  | openBrace =>
    left
    refine ⟨trivial, ?_⟩
    simp [genPiece, PieceSyn.toPiece, stmtFor, stepState, captureOf,
      usedPosOf, usedNameOf, bareOf, PieceSyn.isBare]
    rfl
  | closeBrace =>
    left
    refine ⟨trivial, ?_⟩
    simp [genPiece, PieceSyn.toPiece, stmtFor, stepState, captureOf,
      usedPosOf, usedNameOf, bareOf, PieceSyn.isBare]
    rfl
  | arg ref spec =>
    rw [toPiece_arg]
    have ht : (specOf spec).toSpec.formatTrait = (specOf spec).ty.trait := rfl
    have hs : (specOf spec).toSpec.style = attrsDiff (specOf spec).attrList := by
      simp only [SpecSyn.toSpec, SpecSyn.attrList]
      cases (specOf spec).attrs <;> rfl
    simp only [genPiece]
    rcases resolveRef_tree n names st ref spec with ⟨h1, e1⟩ | ⟨h1, e, e1, e2⟩
    · rcases formatterArgsTokens_spec (specOf spec) with ⟨h2, e2⟩ | ⟨h2, e2⟩
      · left
        refine ⟨⟨h1, h2⟩, ?_⟩
        rw [e1, hs, styleDiffTokens_attrs]
        simp only [bind, Except.bind, e2, argTokens_ok, ht]
        rfl
      · right
        refine ⟨fun h => h2 h.2, .countParameterTodo, ?_, ref, spec, rfl, h2⟩
        rw [e1]
        simp only [bind, Except.bind, e2, argTokens_ok]
    · right
      refine ⟨fun h => h1 h.1, e, ?_, e2⟩
      rw [e1]
      rfl

def stmtsFor (names : List Str) : Nat → Nat → List PieceSyn → List Stmt
  | _, _, [] => []
  | bare, k, p :: rest =>
    stmtFor names bare k p :: stmtsFor names (bare + bareOf p) (k + (captureOf names p).length) rest

def PiecesOk (n : Nat) (names : List Str) : Nat → List PieceSyn → Prop
  | _, [] => True
  | bare, p :: rest => PieceOk n names bare p ∧ PiecesOk n names (bare + bareOf p) rest

def finalState (names : List Str) (st : GenState) (t : List PieceSyn) : GenState :=
  t.foldl (stepState names) st

theorem genPieces_tree (n : Nat) (names : List Str) (st : GenState) (t : List PieceSyn)
    (ht : ∀ s, PieceSyn.text s ∈ t → '{' ∉ s) :
    PiecesOk n names st.next t ∧ genPieces n names st (t.map PieceSyn.toPiece) =
      .ok (stmtsFor names st.next st.implicit.length t, finalState names st t) ∨
    ¬ PiecesOk n names st.next t ∧ ∃ e before p after,
      genPieces n names st (t.map PieceSyn.toPiece) = .error e ∧ t = before ++ p :: after ∧
      PieceError n names (st.next + bareCount before) p e := by
  induction t generalizing st with
  | nil => exact Or.inl ⟨trivial, rfl⟩
  | cons p t ih =>
    simp only [List.map_cons, genPieces]
    have hp : ∀ s, p = .text s → '{' ∉ s := fun s hs => ht s (by simp [hs])
    rcases genPiece_tree n names st p hp with ⟨h1, e1⟩ | ⟨h1, e, e1, e2⟩
    · have hnext : (stepState names st p).next = st.next + bareOf p := rfl
      have himp : (stepState names st p).implicit.length = st.implicit.length + (captureOf names p).length := by
        simp [stepState]
      rw [e1]
      rcases ih (stepState names st p) (fun s hs => ht s (by simp [hs])) with
        ⟨h2, e2⟩ | ⟨h2, e, before, q, after, e2, rfl, e3⟩
      · left
        rw [hnext] at h2
        refine ⟨⟨h1, h2⟩, ?_⟩
        simp only [bind, Except.bind, e2, hnext, himp]
        rfl
      · right
        rw [hnext] at h2
        refine ⟨fun h => h2 h.2, e, p :: before, q, after, ?_, rfl, ?_⟩
        · simp only [bind, Except.bind, e2]
        · have : st.next + bareCount (p :: before) = (stepState names st p).next + bareCount before := by
            rw [hnext]
            simp only [bareCount, List.countP_cons, bareOf]
            omega
          rw [this]
          exact e3
    · right
      refine ⟨fun h => h1 h.1, e, [], p, t, ?_, rfl, by simpa [bareCount] using e2⟩
      rw [e1]
      rfl

/-! ### The final state -/

theorem finalState_implicit (names : List Str) (st : GenState) (t : List PieceSyn) :
    (finalState names st t).implicit = st.implicit ++ t.flatMap (captureOf names) := by
  induction t generalizing st with
  | nil => simp [finalState]
  | cons p t ih =>
    have e : finalState names st (p :: t) = finalState names (stepState names st p) t := rfl
    rw [e, ih]
    simp [stepState]

theorem finalState_usedNamed (names : List Str) (st : GenState) (t : List PieceSyn) :
    (finalState names st t).usedNamed = st.usedNamed ++ t.flatMap (usedNameOf names) := by
  induction t generalizing st with
  | nil => simp [finalState]
  | cons p t ih =>
    have e : finalState names st (p :: t) = finalState names (stepState names st p) t := rfl
    rw [e, ih]
    simp [stepState]

theorem mem_finalState_usedPositional (names : List Str) (st : GenState) (t : List PieceSyn) (i : Nat) :
    i ∈ (finalState names st t).usedPositional ↔ i ∈ st.usedPositional ∨
      ∃ before p after, t = before ++ p :: after ∧ i ∈ usedPosOf (st.next + bareCount before) p := by
  induction t generalizing st with
  | nil => simp [finalState]
  | cons p t ih =>
    have e : finalState names st (p :: t) = finalState names (stepState names st p) t := rfl
    rw [e, ih]
    have hb : ∀ before, (stepState names st p).next + bareCount before = st.next + bareCount (p :: before) := by
      intro before
      simp only [stepState, bareCount, List.countP_cons, bareOf]
      omega
    simp only [hb]
    simp only [stepState, List.mem_append]
    constructor
    · rintro ((h | h) | ⟨before, q, after, rfl, h⟩)
      · exact Or.inl h
      · exact Or.inr ⟨[], p, t, rfl, by simpa [bareCount] using h⟩
      · exact Or.inr ⟨p :: before, q, after, rfl, h⟩
    · rintro (h | ⟨before, q, after, h1, h⟩)
      · exact Or.inl (Or.inl h)
      · cases before with
        | nil =>
          obtain ⟨rfl, rfl⟩ := List.cons.inj h1
          exact Or.inl (Or.inr (by simpa [bareCount] using h))
        | cons q' before =>
          obtain ⟨rfl, rfl⟩ := List.cons.inj h1
          exact Or.inr ⟨before, q, after, rfl, h⟩

theorem PiecesOk_iff (n : Nat) (names : List Str) (bare : Nat) (t : List PieceSyn) :
    PiecesOk n names bare t ↔ ∀ before ref spec after, t = before ++ .arg ref spec :: after →
      RefOkAt n names (bare + bareCount before) ref ∧ (specOf spec).NoParams := by
  induction t generalizing bare with
  | nil => simp [PiecesOk]
  | cons p t ih =>
    simp only [PiecesOk, ih]
    constructor
    · rintro ⟨h1, h2⟩ before ref spec after h
      cases before with
      | nil =>
        obtain ⟨rfl, rfl⟩ := List.cons.inj h
        simpa [PieceOk, bareCount] using h1
      | cons q before =>
        obtain ⟨rfl, rfl⟩ := List.cons.inj h
        have := h2 before ref spec after rfl
        have e : bare + bareCount (p :: before) = bare + bareOf p + bareCount before := by
          simp only [bareCount, List.countP_cons, bareOf]; omega
        rw [e]
        exact this
    · intro h
      constructor
      · cases p with
        | arg ref spec => simpa [PieceOk, bareCount] using h [] ref spec t rfl
        | _ => trivial
      · intro before ref spec after ht
        subst ht
        have := h (p :: before) ref spec after rfl
        have e : bare + bareCount (p :: before) = bare + bareOf p + bareCount before := by
          simp only [bareCount, List.countP_cons, bareOf]; omega
        rw [e] at this
        exact this

end Stylish
