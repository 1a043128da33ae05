import Verif.Lemmas.Expand
/-
The macros as a whole: which calls compile, and what the generated code is.
-/

namespace Stylish

open Nom Format Spec Spec.Syntax

variable {X Y : Type}

/-! ### Splitting the arguments -/

theorem splitArgs_named (pos : List X) (named ns : List (Str × X)) :
    splitArgs true pos named (ns.map (fun p => .named p.1 p.2)) = .ok (pos, named ++ ns) := by
  induction ns generalizing named with
  | nil => simp [splitArgs]
  | cons p ns ih => simp [splitArgs, ih]

theorem splitArgs_first (b : Bool) (pos es : List X) (named ns : List (Str × X)) (hb : b = false ∨ es = []) :
    splitArgs b pos named (es.map .positional ++ ns.map (fun p => .named p.1 p.2)) =
      .ok (pos ++ es, named ++ ns) := by
  induction es generalizing pos with
  | nil =>
    cases ns with
    | nil => simp [splitArgs]
    | cons p ns => simp [splitArgs, splitArgs_named]
  | cons e es ih =>
    rcases hb with rfl | h
    · simp [splitArgs, ih]
    · cases h

theorem positionals_first (es : List X) (ns : List (Str × X)) :
    positionals (es.map .positional ++ ns.map (fun p => .named p.1 p.2)) = es := by
  have h1 : ∀ es : List X, positionals (es.map .positional) = es := by
    intro es
    induction es with
    | nil => rfl
    | cons e es ih => simpa [positionals] using ih
  have h2 : ∀ ns : List (Str × X), positionals (ns.map (fun p => MacroArg.named p.1 p.2)) = [] := by
    intro ns
    induction ns with
    | nil => rfl
    | cons e es ih => simp [positionals]
  simp only [positionals, List.filterMap_append] at h1 h2 ⊢
  rw [h1, h2, List.append_nil]

theorem nameds_first (es : List X) (ns : List (Str × X)) :
    nameds (es.map .positional ++ ns.map (fun p => .named p.1 p.2)) = ns := by
  have h1 : ∀ es : List X, nameds (es.map .positional) = [] := by
    intro es
    induction es with
    | nil => rfl
    | cons e es ih => simp [nameds]
  have h2 : ∀ ns : List (Str × X), nameds (ns.map (fun p => MacroArg.named p.1 p.2)) = ns := by
    intro ns
    induction ns with
    | nil => rfl
    | cons e es ih => simpa [nameds] using ih
  simp only [nameds, List.filterMap_append] at h1 h2 ⊢
  rw [h1, h2, List.nil_append]

/-- The loop over the arguments, from any state. -/
theorem splitArgs_cases (b : Bool) (pos : List X) (named : List (Str × X)) (args : List (MacroArg X)) :
    (∃ (es : List X) (ns : List (Str × X)), args = es.map .positional ++ ns.map (fun p => .named p.1 p.2) ∧ (b = true → es = []) ∧
      splitArgs b pos named args = .ok (pos ++ es, named ++ ns)) ∨
    ((¬ ∃ (es : List X) (ns : List (Str × X)),
        args = es.map .positional ++ ns.map (fun p => .named p.1 p.2) ∧ (b = true → es = [])) ∧
      splitArgs b pos named args = .error .positionalAfterNamed) := by
  induction args generalizing b pos named with
  | nil => exact Or.inl ⟨[], [], rfl, fun _ => rfl, by simp [splitArgs]⟩
  | cons a args ih =>
    cases a with
    | positional e =>
      cases b with
      | true =>
        right
        refine ⟨?_, by simp [splitArgs]⟩
        rintro ⟨es, ns, h, hb⟩
        rw [hb rfl] at h
        cases ns with
        | nil => simp at h
        | cons p ns => simp at h
      | false =>
        simp only [splitArgs]
        rcases ih false (pos ++ [e]) named with ⟨es, ns, rfl, -, h⟩ | ⟨hn, h⟩
        · left
          exact ⟨e :: es, ns, rfl, by simp, by simpa using h⟩
        · right
          refine ⟨?_, by simpa using h⟩
          rintro ⟨es, ns, h', -⟩
          apply hn
          cases es with
          | nil => cases ns <;> simp at h'
          | cons e' es =>
            simp at h'
            exact ⟨es, ns, h'.2, by simp⟩
    | named m e =>
      simp only [splitArgs]
      rcases ih true pos (named ++ [(m, e)]) with ⟨es, ns, rfl, hb, h⟩ | ⟨hn, h⟩
      · left
        have := hb rfl
        subst this
        exact ⟨[], (m, e) :: ns, rfl, by simp, by simpa using h⟩
      · right
        refine ⟨?_, h⟩
        rintro ⟨es, ns, h', -⟩
        apply hn
        cases es with
        | cons e' es => simp at h'
        | nil =>
          cases ns with
          | nil => simp at h'
          | cons p ns =>
            simp at h'
            exact ⟨[], ns, by simpa using h'.2, by simp⟩

theorem parse_cases (format : Str) (args : List (MacroArg X)) :
    PositionalFirst args ∧ ArgsInput.parse format args = .ok ⟨format, positionals args, nameds args⟩ ∨
    ¬ PositionalFirst args ∧ ArgsInput.parse format args = .error .positionalAfterNamed := by
  rcases splitArgs_cases false [] [] args with ⟨es, ns, rfl, -, h⟩ | ⟨hn, h⟩
  · left
    refine ⟨⟨es, ns, rfl⟩, ?_⟩
    rw [positionals_first, nameds_first]
    simp [ArgsInput.parse, h]
  · right
    refine ⟨?_, by simp [ArgsInput.parse, h]⟩
    rintro ⟨es, ns, hargs⟩
    exact hn ⟨es, ns, hargs, by simp⟩

/-! ### Names -/

theorem namedIndex_append (names : List Str) (m n : Str) :
    namedIndex (names ++ [m]) n = if m = n then some names.length else namedIndex names n := by
  unfold namedIndex
  rw [List.zipIdx_append]
  simp only [List.zipIdx_cons, List.zipIdx_nil, List.reverse_append, List.reverse_cons, List.reverse_nil,
    List.nil_append, List.singleton_append, List.find?_cons]
  by_cases h : m = n
  · simp [h]
  · have : (m == n) = false := by simpa using h
    simp [this, h]

theorem namedIndex_lt (names : List Str) (n : Str) (i : Nat) (h : namedIndex names n = some i) :
    i < names.length := by
  unfold namedIndex at h
  obtain ⟨⟨m, j⟩, h1, rfl⟩ := Option.map_eq_some_iff.1 h
  have h2 := List.mem_of_find?_eq_some h1
  have h3 := (List.mem_zipIdx (List.mem_reverse.1 h2))
  omega

theorem list_reverse_induction {α : Type} {P : List α → Prop} (h0 : P [])
    (h1 : ∀ l a, P l → P (l ++ [a])) (l : List α) : P l := by
  have : ∀ l : List α, P l.reverse := by
    intro l
    induction l with
    | nil => exact h0
    | cons a l ih => rw [List.reverse_cons]; exact h1 _ _ ih
  have h := this l.reverse
  rwa [List.reverse_reverse] at h

theorem namedIndex_none (names : List Str) (n : Str) : namedIndex names n = none ↔ n ∉ names := by
  induction names using list_reverse_induction with
  | h0 => simp [namedIndex]
  | h1 l a ih =>
    rw [namedIndex_append]
    by_cases h : a = n
    · simp [h]
    · have h' : ¬ n = a := fun e => h e.symm
      simp [h, h', ih]

/-- The last named argument of a name is the tuple field the macro picks. -/
theorem lastNamed_list (ns : List (Str × X)) (n : Str) :
    ((ns.filter (fun p => p.1 = n)).getLast?).map Prod.snd =
      (namedIndex (ns.map Prod.fst) n).bind (fun i => (ns.map Prod.snd)[i]?) := by
  induction ns using list_reverse_induction with
  | h0 => rfl
  | h1 l a ih =>
    rw [List.map_append, List.map_singleton, namedIndex_append, List.filter_append, List.map_append]
    by_cases h : a.1 = n
    · simp [h, List.getLast?_append]
    · have e : [a].filter (fun p => decide (p.1 = n)) = [] := by simp [h]
      rw [e, List.append_nil, ih, if_neg h]
      rcases hi : namedIndex (l.map Prod.fst) n with _ | i
      · rfl
      · have := namedIndex_lt _ _ _ hi
        simp only [List.length_map] at this
        simp only [Option.bind_some]
        rw [List.getElem?_append_left (by simpa using this)]

theorem lastNamed_eq (args : List (MacroArg X)) (n : Str) :
    lastNamed args n = (namedIndex ((nameds args).map Prod.fst) n).bind
      (fun i => ((nameds args).map Prod.snd)[i]?) := lastNamed_list _ _

theorem canBeRaw_iff (n : Str) :
    canBeRaw n = true ↔ n ∉ [str "_", str "super", str "self", str "Self", str "crate"] := by
  simp [canBeRaw]

/-! ### The whole macro -/

/-- The statements generated for a tree. -/
def expansionOf (args : List (MacroArg X)) (t : List PieceSyn) : Expansion X :=
  { positional := positionals args
    named := (nameds args).map Prod.snd
    implicit := t.flatMap (captureOf ((nameds args).map Prod.fst))
    statements := stmtsFor ((nameds args).map Prod.fst) 0 0 t }

theorem RefOkAt_iff (args : List (MacroArg X)) (before : List PieceSyn) (ref : Option ArgRef) :
    RefOkAt (positionals args).length ((nameds args).map Prod.fst) (0 + bareCount before) ref ↔
      RefExists args before ref := by
  rcases ref with _ | ds | n
  · simp [RefOkAt, RefExists]
  · simp [RefOkAt, RefExists]
  · simp only [RefOkAt, RefExists, ne_eq, namedIndex_none, canBeRaw_iff, Classical.not_not]

theorem RefsOk_iff (args : List (MacroArg X)) (t : List PieceSyn) :
    PiecesOk (positionals args).length ((nameds args).map Prod.fst) 0 t ↔ RefsOk args t := by
  rw [PiecesOk_iff]
  simp only [RefOkAt_iff]
  rfl

theorem hasUnused_iff (args : List (MacroArg X)) (t : List PieceSyn) :
    hasUnused (positionals args).length ((nameds args).map Prod.fst)
      (finalState ((nameds args).map Prod.fst) ⟨[], [], [], 0⟩ t) = false ↔ AllUsed args t := by
  have h1 : ∀ i, i ∈ (finalState ((nameds args).map Prod.fst) ⟨[], [], [], 0⟩ t).usedPositional ↔
      UsesPositional t i := by
    intro i
    rw [mem_finalState_usedPositional]
    simp only [List.not_mem_nil, false_or, UsesPositional]
    constructor
    · rintro ⟨before, p, after, rfl, h⟩
      rcases p with s | _ | _ | ⟨ref, spec⟩
      · simp [usedPosOf] at h
      · simp [usedPosOf] at h
      · simp [usedPosOf] at h
      · refine ⟨before, ref, spec, after, rfl, ?_⟩
        rcases ref with _ | ds | n
        · left; exact ⟨rfl, by simpa [usedPosOf] using h⟩
        · right; exact ⟨ds, rfl, by simpa [usedPosOf] using h⟩
        · simp [usedPosOf] at h
    · rintro ⟨before, ref, spec, after, rfl, h⟩
      refine ⟨before, .arg ref spec, after, rfl, ?_⟩
      rcases h with ⟨rfl, h⟩ | ⟨ds, rfl, h⟩
      · simp [usedPosOf, h]
      · simp [usedPosOf, h]
  have h2 : ∀ n ∈ (nameds args).map Prod.fst,
      (n ∈ (finalState ((nameds args).map Prod.fst) ⟨[], [], [], 0⟩ t).usedNamed ↔ UsesName t n) := by
    intro n hn
    rw [finalState_usedNamed]
    simp only [List.nil_append, List.mem_flatMap, UsesName]
    constructor
    · rintro ⟨p, hp, h⟩
      rcases p with s | _ | _ | ⟨ref, spec⟩
      · simp [usedNameOf] at h
      · simp [usedNameOf] at h
      · simp [usedNameOf] at h
      · rcases ref with _ | ds | m
        · simp [usedNameOf] at h
        · simp [usedNameOf] at h
        · simp only [usedNameOf] at h
          split at h
          · simp at h
          · simp only [List.mem_singleton] at h
            subst h
            exact ⟨spec, hp⟩
    · rintro ⟨spec, hp⟩
      refine ⟨_, hp, ?_⟩
      simp only [usedNameOf]
      rw [if_neg (by rw [namedIndex_none]; simpa using hn)]
      simp
  unfold hasUnused AllUsed
  simp only [Bool.or_eq_false_iff, List.any_eq_false, List.mem_range, Bool.not_eq_true, Bool.not_eq_false',
    List.contains_iff_mem]
  constructor
  · rintro ⟨ha, hb⟩
    exact ⟨fun i hi => (h1 i).1 (ha i hi), fun n hn => (h2 n hn).1 (hb n hn)⟩
  · rintro ⟨ha, hb⟩
    exact ⟨fun i hi => (h1 i).2 (ha i hi), fun n hn => (h2 n hn).2 (hb n hn)⟩

/-- The errors the code generator reports for a tree, and when. -/
def GenError (args : List (MacroArg X)) (t : List PieceSyn) (e : CompileError) : Prop :=
  (∃ before p after, t = before ++ p :: after ∧
    PieceError (positionals args).length ((nameds args).map Prod.fst) (bareCount before) p e) ∨
  (e = .unusedArguments ∧ ¬ AllUsed args t)

theorem documented_text {E : Env} {t : List PieceSyn} (hd : Documented E t) :
    ∀ s, PieceSyn.text s ∈ t → '{' ∉ s := fun _ hs => (hd.1 _ hs).2.1

/-- `format_args_impl` on the string of a tree. -/
theorem formatArgsImpl_tree {E : Env} (hE : E.Lawful) (args : List (MacroArg X)) (t : List PieceSyn)
    (hd : Documented E t) (hs : Supported E t) :
    (RefsOk args t ∧ AllUsed args t) ∧
      formatArgsImpl E ⟨print t, positionals args, nameds args⟩ = .ok (expansionOf args t) ∨
    ¬ (RefsOk args t ∧ AllUsed args t) ∧
      ∃ e, formatArgsImpl E ⟨print t, positionals args, nameds args⟩ = .error e ∧ GenError args t e := by
  have hp : parsePieces E (print t) = .ok (t.map PieceSyn.toPiece) := by
    unfold parsePieces
    rw [(parseFormat_iff hE _ _ _).2 ⟨rfl, t, rfl, rfl, hd, hs⟩]
  unfold formatArgsImpl
  simp only [hp, bind, Except.bind]
  rcases genPieces_tree (positionals args).length ((nameds args).map Prod.fst) ⟨[], [], [], 0⟩ t
    (documented_text hd) with ⟨h1, e1⟩ | ⟨h1, e, before, p, after, e1, h2, h3⟩
  · rw [e1]
    simp only
    cases hu : hasUnused (positionals args).length ((nameds args).map Prod.fst)
      (finalState ((nameds args).map Prod.fst) ⟨[], [], [], 0⟩ t) with
    | false =>
      left
      refine ⟨⟨(RefsOk_iff args t).1 h1, (hasUnused_iff args t).1 hu⟩, ?_⟩
      simp only [Bool.false_eq_true, if_false, finalState_implicit, List.nil_append]
      rfl
    | true =>
      right
      have hnot : ¬ AllUsed args t := by
        rw [← hasUnused_iff, hu]; simp
      refine ⟨fun h => hnot h.2, .unusedArguments, by simp, Or.inr ⟨rfl, hnot⟩⟩
  · right
    refine ⟨fun h => h1 ((RefsOk_iff args t).2 h.1), e, ?_, Or.inl ⟨before, p, after, h2, ?_⟩⟩
    · rw [e1]
    · simpa using h3

/-- `format_args_impl` on any other string. -/
theorem formatArgsImpl_no_tree {E : Env} (hE : E.Lawful) (input : ArgsInput X)
    (h : ¬ ∃ t, print t = input.format ∧ Documented E t ∧ Supported E t) :
    parseFormat E input.format ≠ .panic ∧ formatArgsImpl E input = .error .parse ∨
    parseFormat E input.format = .panic ∧ formatArgsImpl E input = .error .fillTodo := by
  unfold formatArgsImpl parsePieces
  cases hp : parseFormat E input.format with
  | ok rest ps =>
    obtain ⟨-, t, h1, -, h2, h3⟩ := (parseFormat_iff hE _ _ _).1 hp
    exact absurd ⟨t, h1, h2, h3⟩ h
  | error => left; exact ⟨nofun, rfl⟩
  | failure => left; exact ⟨nofun, rfl⟩
  | panic => right; exact ⟨rfl, rfl⟩

/-- Two readings of the same string have the same meaning. -/
theorem tree_meaning_unique {E : Env} (hE : E.Lawful) {t t' : List PieceSyn} (hd : Documented E t)
    (hs : Supported E t) (hd' : Documented E t') (hs' : Supported E t') (h : print t = print t') :
    t.map PieceSyn.toPiece = t'.map PieceSyn.toPiece := by
  have h1 := (parseFormat_iff hE (print t) [] (t.map PieceSyn.toPiece)).2 ⟨rfl, t, rfl, rfl, hd, hs⟩
  have h2 := (parseFormat_iff hE (print t') [] (t'.map PieceSyn.toPiece)).2 ⟨rfl, t', rfl, rfl, hd', hs'⟩
  rw [h] at h1
  exact (PRes.ok.inj (h1.symm.trans h2)).2

end Stylish
