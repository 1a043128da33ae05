import Verif.Lemmas.FillTodo
import Verif.Props.Macro
/-
Properties of the macros: C38, C40, C42.
-/

namespace Stylish.Props

open Nom Format Spec Spec.Syntax

variable {X : Type}

/-! ## C38 -/

/-- First one output, then, if it ended in `Ok`, another. -/
def andThen (x y : List Chunk × Res FmtError Unit) : List Chunk × Res FmtError Unit :=
  match x with
  | (out, .ok ()) => (out ++ y.1, y.2)
  | stop => stop

theorem andThen_assoc (x y z : List Chunk × Res FmtError Unit) :
    andThen (andThen x y) z = andThen x (andThen y z) := by
  rcases x with ⟨a, _ | _ | _ | _⟩
  · rcases y with ⟨b, _ | _ | _ | _⟩ <;> simp [andThen]
  · rfl
  · rfl
  · rfl

theorem treeOutput_cons (args : List (MacroArg ArgVal)) (scope : Str → ArgVal) (st : Style)
    (before : List PieceSyn) (p : PieceSyn) (rest : List PieceSyn) :
    treeOutput args scope st before (p :: rest) =
      andThen (pieceOutput args scope before st p) (treeOutput args scope st (before ++ [p]) rest) := by
  rw [treeOutput]
  rcases pieceOutput args scope before st p with ⟨a, _ | _ | _ | _⟩ <;> rfl

theorem treeOutput_append (args : List (MacroArg ArgVal)) (scope : Str → ArgVal) (st : Style)
    (before t t' : List PieceSyn) :
    treeOutput args scope st before (t ++ t') =
      andThen (treeOutput args scope st before t) (treeOutput args scope st (before ++ t) t') := by
  induction t generalizing before with
  | nil => simp [treeOutput, andThen]
  | cons p t ih =>
    rw [List.cons_append, treeOutput_cons, ih, treeOutput_cons, andThen_assoc]
    simp

/-- C38: in an accepted call every placeholder has a value, and the output is that of the format string
before the placeholder, then the value formatted by the placeholder, then the rest. The value is
(see `valueFor`): positional argument number `k` for the placeholder without reference that has `k` such
placeholders before it, positional argument `n` for `{n}`, and for `{name}` the (last) named argument of that
name or else the variable in scope. -/
theorem C38_placeholder_value {E : Env} (hE : E.Lawful) (before after : List PieceSyn) (ref : Option ArgRef)
    (spec : Option SpecSyn) (args : List (MacroArg ArgVal)) (scope : Str → ArgVal) (x : Arguments)
    (hd : Documented E (before ++ .arg ref spec :: after)) (hs : Supported E (before ++ .arg ref spec :: after))
    (h : formatArgs E (print (before ++ .arg ref spec :: after)) args scope = .ok x) :
    ∃ v, valueFor args scope before ref = some v ∧
      (ref = none → (positionals args)[bareCount before]? = some v) ∧
      (∀ ds, ref = some (.index ds) → (positionals args)[numeralValue ds]? = some v) ∧
      (∀ n, ref = some (.name n) → lastNamed args n = some v ∨ lastNamed args n = none ∧ v = scope n) ∧
      ∀ st a, writes (Display.fmt x) st a =
        andThen (treeOutput args scope st [] before)
          (andThen (argOutput v (specOf spec) st)
            (treeOutput args scope st (before ++ [.arg ref spec]) after)) := by
  have hv : ∃ v, valueFor args scope before ref = some v := by
    obtain ⟨t, h1, h2, h3, h4, h5, h6, h7⟩ := formatArgs_ok_tree hE h
    rcases formatArgs_tree hE args scope _ hd hs with ⟨⟨-, hr, -⟩, -⟩ | ⟨-, e, he⟩
    · have := (hr before ref spec after rfl).1
      rcases ref with _ | ⟨ds | n⟩
      · exact ⟨_, List.getElem?_eq_getElem this⟩
      · exact ⟨_, List.getElem?_eq_getElem this⟩
      · exact ⟨_, rfl⟩
    · rw [he] at h; cases h
  obtain ⟨v, hv⟩ := hv
  refine ⟨v, hv, ?_, ?_, ?_, ?_⟩
  · rintro rfl; exact hv
  · rintro ds rfl; exact hv
  · rintro n rfl
    have := Option.some.inj hv
    cases hn : lastNamed args n with
    | some u => left; rw [hn] at this; rw [← this]; rfl
    | none => right; rw [hn] at this; exact ⟨rfl, this.symm⟩
  · intro st a
    rw [(C46_end_to_end hE _ args scope x h).2 _ ⟨rfl, hd, hs⟩ st a, treeOutput_append, treeOutput_cons]
    congr 2
    simp only [pieceOutput, List.nil_append, hv]

/-- C38: a reference that does not exist is a compile error: too few positional arguments for `{}` or `{n}`. -/
theorem C38_missing_reference {E : Env} (hE : E.Lawful) (before after : List PieceSyn) (ref : Option ArgRef)
    (spec : Option SpecSyn) (args : List (MacroArg X))
    (hd : Documented E (before ++ .arg ref spec :: after)) (hs : Supported E (before ++ .arg ref spec :: after))
    (h : ref = none ∧ (positionals args).length ≤ bareCount before ∨
      ∃ ds, ref = some (.index ds) ∧ (positionals args).length ≤ numeralValue ds) :
    ∃ e, formatArgsMacro E (print (before ++ .arg ref spec :: after)) args = .error e := by
  rcases formatArgsMacro_tree hE args _ hd hs with ⟨⟨-, hr, -⟩, -⟩ | ⟨-, e, he, -⟩
  · have := (hr before ref spec after rfl).1
    rcases h with ⟨rfl, h⟩ | ⟨ds, rfl, h⟩
    · exact absurd this (Nat.not_lt.2 h)
    · exact absurd this (Nat.not_lt.2 h)
  · exact ⟨e, he⟩

/-- An explicit reference does not count as a placeholder without reference. -/
theorem bareCount_explicit (before : List PieceSyn) (r : ArgRef) (spec : Option SpecSyn) :
    bareCount (before ++ [.arg (some r) spec]) = bareCount before := by
  simp [bareCount, PieceSyn.isBare]

/-- The value of a reference depends on what is before it only through the number of bare placeholders. -/
theorem treeOutput_congr (args : List (MacroArg ArgVal)) (scope : Str → ArgVal) (st : Style)
    (b b' t : List PieceSyn) (h : bareCount b = bareCount b') :
    treeOutput args scope st b t = treeOutput args scope st b' t := by
  induction t generalizing b b' with
  | nil => rfl
  | cons p t ih =>
    have e : bareCount (b ++ [p]) = bareCount (b' ++ [p]) := by
      have h : b.countP PieceSyn.isBare = b'.countP PieceSyn.isBare := h
      simp only [bareCount, List.countP_append, h]
    have hp : pieceOutput args scope b st p = pieceOutput args scope b' st p := by
      rcases p with _ | _ | _ | ⟨_ | ⟨_ | _⟩, spec⟩ <;>
        first
        | rfl
        | simp only [pieceOutput, valueFor, h]
    rw [treeOutput_cons, treeOutput_cons, hp, ih _ _ e]

/-- C38: explicit references do not affect the numbering of the others: in an accepted call the text after
a placeholder `{n..}` or `{name..}` gives what it would give if that placeholder were not there. -/
theorem C38_numbering {E : Env} (hE : E.Lawful) (before after : List PieceSyn) (r : ArgRef)
    (spec : Option SpecSyn) (args : List (MacroArg ArgVal)) (scope : Str → ArgVal) (x y : Arguments)
    (hd : Documented E (before ++ .arg (some r) spec :: after))
    (hs : Supported E (before ++ .arg (some r) spec :: after))
    (hx : formatArgs E (print (before ++ .arg (some r) spec :: after)) args scope = .ok x)
    (hd' : Documented E (before ++ after)) (hs' : Supported E (before ++ after))
    (hy : formatArgs E (print (before ++ after)) args scope = .ok y) :
    ∃ v, valueFor args scope before (some r) = some v ∧ ∀ st a, ∃ rest,
      writes (Display.fmt y) st a = andThen (treeOutput args scope st [] before) rest ∧
      writes (Display.fmt x) st a =
        andThen (treeOutput args scope st [] before) (andThen (argOutput v (specOf spec) st) rest) := by
  obtain ⟨v, hv, -, -, -, h⟩ := C38_placeholder_value hE before after (some r) spec args scope x hd hs hx
  refine ⟨v, hv, fun st a => ⟨treeOutput args scope st before after, ?_, ?_⟩⟩
  · rw [(C46_end_to_end hE _ args scope y hy).2 _ ⟨rfl, hd', hs'⟩ st a, treeOutput_append]
    rfl
  · rw [h st a, treeOutput_congr args scope st _ before after (bareCount_explicit before r spec)]

/-- One more positional argument in front and one more bare placeholder before: nothing changes, without
references by position. -/
theorem treeOutput_shift (v : ArgVal) (args : List (MacroArg ArgVal)) (scope : Str → ArgVal) (st : Style)
    (b b' t : List PieceSyn) (h : bareCount b' = bareCount b + 1)
    (hno : ∀ p ∈ t, ∀ ds sp, p ≠ .arg (some (.index ds)) sp) :
    treeOutput (.positional v :: args) scope st b' t = treeOutput args scope st b t := by
  induction t generalizing b b' with
  | nil => rfl
  | cons p t ih =>
    have e : bareCount (b' ++ [p]) = bareCount (b ++ [p]) + 1 := by
      have h : b'.countP PieceSyn.isBare = b.countP PieceSyn.isBare + 1 := h
      simp only [bareCount, List.countP_append, h]
      omega
    have hp : pieceOutput (.positional v :: args) scope b' st p = pieceOutput args scope b st p := by
      rcases p with _ | _ | _ | ⟨_ | ⟨ds | n⟩, spec⟩
      · rfl
      · rfl
      · rfl
      · simp [pieceOutput, valueFor, h, positionals]
      · exact absurd rfl (hno _ (by simp) ds spec)
      · rfl
    rw [treeOutput_cons, treeOutput_cons, hp, ih _ _ e (fun q hq => hno q (by simp [hq]))]

/-- C38: and each placeholder without reference takes one positional argument: with one of them in front,
the others take the argument after. -/
theorem C38_numbering_bare {E : Env} (hE : E.Lawful) (after : List PieceSyn) (spec : Option SpecSyn)
    (v : ArgVal) (args : List (MacroArg ArgVal)) (scope : Str → ArgVal) (x y : Arguments)
    (hd : Documented E (.arg none spec :: after)) (hs : Supported E (.arg none spec :: after))
    (hx : formatArgs E (print (.arg none spec :: after)) (.positional v :: args) scope = .ok x)
    (hd' : Documented E after) (hs' : Supported E after)
    (hno : ∀ p ∈ after, ∀ ds sp, p ≠ .arg (some (.index ds)) sp)
    (hy : formatArgs E (print after) args scope = .ok y) :
    ∀ st a, writes (Display.fmt x) st a =
      andThen (argOutput v (specOf spec) st) (writes (Display.fmt y) st a) := by
  intro st a
  rw [(C46_end_to_end hE _ _ scope x hx).2 _ ⟨rfl, hd, hs⟩ st a,
    (C46_end_to_end hE _ args scope y hy).2 _ ⟨rfl, hd', hs'⟩ st a, treeOutput_cons,
    treeOutput_shift v args scope st [] _ after (by rfl) hno]
  rfl

example : (formatArgs asciiEnv (str "{1}{}{a}{}{b}{0}")
      [.positional (textArg (str "p0")), .positional (textArg (str "p1")), .named (str "a") (textArg (str "n"))]
      (fun n => textArg (n ++ ['!']))).toOption.map
        (fun x => (writes (Display.fmt x) .default .default).1.map Prod.fst) =
      some [str "p1", str "p0", str "n", str "p1", str "b!", str "p0"] := by
  decide +kernel

/-- The same without the first placeholder, as in `C38_numbering`; and `C38_numbering_bare` on an example. -/
example : (formatArgs asciiEnv (str "{}{a}{}{b}{0}")
      [.positional (textArg (str "p0")), .positional (textArg (str "p1")), .named (str "a") (textArg (str "n"))]
      (fun n => textArg (n ++ ['!']))).toOption.map
        (fun x => (writes (Display.fmt x) .default .default).1.map Prod.fst) =
      some [str "p0", str "n", str "p1", str "b!", str "p0"] ∧
    (formatArgs asciiEnv (str "{}{}{a}") [.positional (textArg (str "p0")), .positional (textArg (str "p1"))]
      (fun n => textArg (n ++ ['!']))).toOption.map
        (fun x => (writes (Display.fmt x) .default .default).1.map Prod.fst) =
      some [str "p0", str "p1", str "a!"] ∧
    (formatArgs asciiEnv (str "{}{a}") [.positional (textArg (str "p1"))]
      (fun n => textArg (n ++ ['!']))).toOption.map
        (fun x => (writes (Display.fmt x) .default .default).1.map Prod.fst) =
      some [str "p1", str "a!"] := by
  decide +kernel

/-! ## C40 -/

theorem evalArgs_positional {St V : Type} (es : List (Expr St V)) (rest : List (MacroArg (Expr St V))) (s : St) :
    evalArgs (es.map .positional ++ rest) s =
      ((evalTuple es s).1.map .positional ++ (evalArgs rest (evalTuple es s).2).1,
        (evalArgs rest (evalTuple es s).2).2) := by
  induction es generalizing s with
  | nil => rfl
  | cons e es ih => simp [evalArgs, evalTuple, ih]

theorem evalArgs_named {St V : Type} (ns : List (Str × Expr St V)) (s : St) :
    evalArgs (ns.map (fun p => .named p.1 p.2)) s =
      (((ns.map Prod.fst).zip (evalTuple (ns.map Prod.snd) s).1).map (fun p => .named p.1 p.2),
        (evalTuple (ns.map Prod.snd) s).2) := by
  induction ns generalizing s with
  | nil => rfl
  | cons p ns ih => simp [evalArgs, evalTuple, ih]

theorem evalTuple_length {St V : Type} (es : List (Expr St V)) (s : St) : (evalTuple es s).1.length = es.length := by
  induction es generalizing s with
  | nil => rfl
  | cons e es ih => simp [evalTuple, ih]

theorem evalTuple_pure {St V : Type} (vars : Str → V) (ns : List Str) (s : St) :
    evalTuple (ns.map (fun n => (pureExpr (vars n) : Expr St V))) s = (ns.map vars, s) := by
  induction ns with
  | nil => rfl
  | cons n ns ih => simp [evalTuple, ih, pureExpr]

theorem positionals_split (es : List X) (ns : List (Str × X)) :
    positionals (es.map .positional ++ ns.map (fun p => .named p.1 p.2)) = es := by
  induction es with
  | nil =>
    induction ns with
    | nil => rfl
    | cons p ns ih => exact ih
  | cons e es ih => exact congrArg (e :: ·) ih

theorem nameds_split (es : List X) (ns : List (Str × X)) :
    nameds (es.map .positional ++ ns.map (fun p => .named p.1 p.2)) = ns := by
  induction es with
  | nil =>
    induction ns with
    | nil => rfl
    | cons p ns ih => exact congrArg (p :: ·) ih
  | cons e es ih => exact ih

/-- `RefsOk` and `AllUsed` only depend on the number of positional arguments and the names. -/
theorem accept_congr {Y : Type} (args : List (MacroArg X)) (args' : List (MacroArg Y)) (t : List PieceSyn)
    (h1 : (positionals args).length = (positionals args').length)
    (h2 : (nameds args).map Prod.fst = (nameds args').map Prod.fst) :
    (RefsOk args t ∧ AllUsed args t) → (RefsOk args' t ∧ AllUsed args' t) := by
  rintro ⟨hr, hu⟩
  refine ⟨fun before ref spec after e => ?_, ?_, ?_⟩
  · obtain ⟨ha, hb⟩ := hr before ref spec after e
    refine ⟨?_, hb⟩
    rcases ref with _ | ⟨ds | n⟩
    · simpa [RefExists, h1] using ha
    · simpa [RefExists, h1] using ha
    · unfold RefExists at ha ⊢; rw [← h2]; exact ha
  · rw [← h1]; exact hu.1
  · rw [← h2]; exact hu.2

/-- C40: evaluating an accepted call evaluates the argument expressions in the order written, each exactly
once (`evalArgs`), leaves the state they leave, and yields what the macro yields for their values: every
placeholder shows that one value. Variables captured from scope are only read (`pureExpr`). -/
theorem C40_evaluated_once_in_order {E : Env} (hE : E.Lawful) {St : Type} (format : Str)
    (args : List (MacroArg (Expr St))) (vars : Str → ArgVal) (x : Expansion (Expr St))
    (h : formatArgsMacro E format args = .ok x) (s : St) :
    (x.eval (fun n => pureExpr (vars n)) s).2 = (evalArgs args s).2 ∧
    formatArgs E format (evalArgs args s).1 vars = .ok (x.eval (fun n => pureExpr (vars n)) s).1 := by
  obtain ⟨t, rfl, hd, hs, -⟩ := (C39_compiles_iff hE format args).1 ⟨x, h⟩
  rcases formatArgsMacro_tree hE args t hd hs with ⟨⟨hp, hr, hu⟩, e⟩ | ⟨-, e, he, -⟩
  rotate_left
  · rw [he] at h; cases h
  rw [e] at h
  obtain rfl := Except.ok.inj h
  obtain ⟨es, ns, rfl⟩ := hp
  have hpos := positionals_split es ns
  have hnam := nameds_split es ns
  have hev := evalArgs_positional es (ns.map (fun p => MacroArg.named p.1 p.2)) s
  rw [evalArgs_named] at hev
  generalize hA : (evalArgs (es.map MacroArg.positional ++ ns.map (fun p => MacroArg.named p.1 p.2)) s) = A at *
  subst hev
  have hlen : (ns.map Prod.fst).length = (evalTuple (ns.map Prod.snd) (evalTuple es s).2).1.length := by
    rw [evalTuple_length]; simp
  have hpos' := positionals_split (evalTuple es s).1
    ((ns.map Prod.fst).zip (evalTuple (ns.map Prod.snd) (evalTuple es s).2).1)
  have hnam' := nameds_split (evalTuple es s).1
    ((ns.map Prod.fst).zip (evalTuple (ns.map Prod.snd) (evalTuple es s).2).1)
  have hfst : ((ns.map Prod.fst).zip (evalTuple (ns.map Prod.snd) (evalTuple es s).2).1).map Prod.fst =
      ns.map Prod.fst := List.map_fst_zip (Nat.le_of_eq hlen)
  have hsnd : ((ns.map Prod.fst).zip (evalTuple (ns.map Prod.snd) (evalTuple es s).2).1).map Prod.snd =
      (evalTuple (ns.map Prod.snd) (evalTuple es s).2).1 := List.map_snd_zip (Nat.le_of_eq hlen.symm)
  have hok := accept_congr _ ((evalTuple es s).1.map MacroArg.positional ++
    ((ns.map Prod.fst).zip (evalTuple (ns.map Prod.snd) (evalTuple es s).2).1).map
      (fun p => MacroArg.named p.1 p.2)) t (by rw [hpos, hpos', evalTuple_length])
      (by rw [hnam, hnam', hfst]) ⟨hr, hu⟩
  rcases formatArgs_tree hE _ vars t hd hs with ⟨-, e'⟩ | ⟨hn, -⟩
  rotate_left
  · exact absurd ⟨⟨_, _, rfl⟩, hok⟩ hn
  rw [e']
  simp only [expansionOf, Expansion.eval, hpos, hnam, evalTuple_pure, treeProg, capturedOf, hpos', hnam', hfst, hsnd]
  exact ⟨trivial, trivial⟩

/-- An expression that records its evaluation. -/
def logged (name : Str) (v : ArgVal) : Expr (List Str) := fun log => (v, log ++ [name])

/-- C40 on expressions that record their evaluation: the record is the list of expressions in the order
written. -/
theorem C40_log {E : Env} (hE : E.Lawful) (format : Str) (es ns : List (Str × ArgVal))
    (vars : Str → ArgVal) (x : Expansion (Expr (List Str)))
    (h : formatArgsMacro E format
      (es.map (fun p => .positional (logged p.1 p.2)) ++ ns.map (fun p => .named p.1 (logged p.1 p.2))) = .ok x) :
    (x.eval (fun n => pureExpr (vars n)) []).2 = es.map Prod.fst ++ ns.map Prod.fst := by
  rw [(C40_evaluated_once_in_order hE _ _ vars x h []).1]
  have hn : ∀ (ns : List (Str × ArgVal)) log, (evalArgs (ns.map (fun p => MacroArg.named p.1 (logged p.1 p.2))) log).2 =
      log ++ ns.map Prod.fst := by
    intro ns
    induction ns with
    | nil => simp [evalArgs]
    | cons p ns ih => intro log; simp [evalArgs, logged, ih]
  have : ∀ (es : List (Str × ArgVal)) log, (evalArgs (es.map (fun p => MacroArg.positional (logged p.1 p.2)) ++
      ns.map (fun p => .named p.1 (logged p.1 p.2))) log).2 = log ++ es.map Prod.fst ++ ns.map Prod.fst := by
    intro es
    induction es with
    | nil => simp [hn]
    | cons p es ih => intro log; simp [evalArgs, logged, ih]
  simpa using this es []

example : (formatArgsMacro asciiEnv (str "{a}{1}{a}{0}{1}")
      [.positional (logged (str "x") (textArg [])), .positional (logged (str "y") (textArg [])),
       .named (str "a") (logged (str "z") (textArg []))]).toOption.map
        (fun x => (x.eval (fun n => pureExpr (noScope n)) []).2) = some [str "x", str "y", str "z"] := by
  decide +kernel

/-! ## C42 -/

/-- A format string which, after some pieces of supported syntax, opens a placeholder, `{` and possibly a
reference, whose specification starts with a fill character other than a space: `{:*<}`. (Whatever follows.) -/
def UnsupportedFill (E : Env) (format : Str) : Prop :=
  ∃ (before : List PieceSyn) (ref : Option ArgRef) (fill : Char) (align : Align) (rest : Str),
    Documented E before ∧ Supported E before ∧ (∀ r, ref = some r → r.Documented E ∧ r.Supported E) ∧
    fill ≠ ' ' ∧
    format = print before ++ '{' :: (optStr ArgRef.print ref ++ ':' :: fill :: printAlign align :: rest)

/-- When each compile error may be reported; `unreachableArm` (an `unreachable!` in the macro) never. -/
def Reason (E : Env) (format : Str) (args : List (MacroArg X)) : CompileError → Prop
  | .parse => (¬ ∃ t, Reads E format t) ∧ ¬ UnsupportedFill E format
  | .fillTodo => (¬ ∃ t, Reads E format t) ∧ UnsupportedFill E format
  | .positionalAfterNamed => ¬ PositionalFirst args
  | .missingArgument => ∃ before spec after, Reads E format (before ++ .arg none spec :: after) ∧
      (positionals args).length ≤ bareCount before
  | .missingPositional i => ∃ before ds spec after,
      Reads E format (before ++ .arg (some (.index ds)) spec :: after) ∧ i = numeralValue ds ∧
      (positionals args).length ≤ i
  | .badRawIdent n => ∃ before spec after,
      Reads E format (before ++ .arg (some (.name n)) spec :: after) ∧ n ∉ (nameds args).map Prod.fst ∧
      n ∈ [str "_", str "super", str "self", str "Self", str "crate"]
  | .countParameterTodo => ∃ before ref spec after, Reads E format (before ++ .arg ref (some spec) :: after) ∧
      ((∃ r, spec.width = some (.param r)) ∨ (∃ r, spec.precision = some (.count (.param r))))
  | .unusedArguments => ∃ t, Reads E format t ∧ ¬ AllUsed args t
  | .unreachableArm => False

/-- C42: whatever the format string and arguments are, the macro expands or fails with one of the compile
errors for the reason given by `Reason`; in particular no `unreachable!` is ever reached. -/
theorem C42_errors_explained {E : Env} (hE : E.Lawful) (format : Str) (args : List (MacroArg X))
    (e : CompileError) (h : formatArgsMacro E format args = .error e) : Reason E format args e := by
  by_cases ht : ∃ t, Reads E format t
  · obtain ⟨t, rfl, hd, hs⟩ := ht
    rcases formatArgsMacro_tree hE args t hd hs with ⟨-, he⟩ | ⟨-, e', he, hg⟩
    · rw [he] at h; cases h
    · rw [he] at h
      obtain rfl := Except.error.inj h
      rcases hg with ⟨-, hg | ⟨rfl, hg⟩⟩ | ⟨hg, rfl⟩
      · obtain ⟨before, p, after, rfl, hg⟩ := hg
        cases e' with
        | missingArgument =>
          obtain ⟨spec, rfl, hg⟩ := hg
          exact ⟨before, spec, after, ⟨rfl, hd, hs⟩, hg⟩
        | missingPositional i =>
          obtain ⟨ds, spec, rfl, hg⟩ := hg
          exact ⟨before, ds, spec, after, ⟨rfl, hd, hs⟩, hg⟩
        | badRawIdent n =>
          obtain ⟨spec, rfl, hg, hr⟩ := hg
          refine ⟨before, spec, after, ⟨rfl, hd, hs⟩, ?_, ?_⟩
          · exact (namedIndex_none _ _).1 hg
          · exact Decidable.byContradiction fun hn => by
              rw [(canBeRaw_iff n).2 hn] at hr; cases hr
        | countParameterTodo =>
          obtain ⟨ref, spec, rfl, hg⟩ := hg
          cases spec with
          | none => exact absurd ⟨by intro r; simp [specOf], by intro r; simp [specOf]⟩ hg
          | some spec =>
            refine ⟨before, ref, spec, after, ⟨rfl, hd, hs⟩, ?_⟩
            refine Classical.byContradiction fun hc => hg ⟨fun r hr => hc (Or.inl ⟨r, hr⟩), fun r hr => hc (Or.inr ⟨r, hr⟩)⟩
        | parse => exact hg.elim
        | fillTodo => exact hg.elim
        | positionalAfterNamed => exact hg.elim
        | unreachableArm => exact hg.elim
        | unusedArguments => exact hg.elim
      · exact ⟨t, ⟨rfl, hd, hs⟩, hg⟩
      · exact hg
  · rcases formatArgsMacro_no_tree hE format args ht with ⟨hp, he⟩ | ⟨hp, he⟩ | ⟨hp, he⟩ <;>
      · rw [he] at h
        obtain rfl := Except.error.inj h
        first
        | exact ⟨ht, fun hu => hp ((parseFormat_panic_iff hE _).2 hu)⟩
        | exact ⟨ht, (parseFormat_panic_iff hE _).1 hp⟩
        | exact hp

/-- C42: the `unreachable!` arms are unreachable. -/
theorem C42_unreachable {E : Env} (hE : E.Lawful) (format : Str) (args : List (MacroArg X)) :
    formatArgsMacro E format args ≠ .error .unreachableArm :=
  fun h => C42_errors_explained hE format args _ h

/-- C42: the errors about the shape of the call and of the format string are reported exactly when they should
be: a positional argument after a named one first of all, then an unsupported fill, then a format string that
is not of the supported syntax. -/
theorem C42_format_errors_iff {E : Env} (hE : E.Lawful) (format : Str) (args : List (MacroArg X)) :
    (formatArgsMacro E format args = .error .positionalAfterNamed ↔ ¬ PositionalFirst args) ∧
    (formatArgsMacro E format args = .error .fillTodo ↔ PositionalFirst args ∧ UnsupportedFill E format) ∧
    (formatArgsMacro E format args = .error .parse ↔
      PositionalFirst args ∧ (¬ ∃ t, Reads E format t) ∧ ¬ UnsupportedFill E format) := by
  have hnot : UnsupportedFill E format → ¬ ∃ t, Reads E format t := by
    rintro hu ⟨t, rfl, hd, hs⟩
    have h1 := (parseFormat_iff hE (print t) [] _).2 ⟨rfl, t, rfl, rfl, hd, hs⟩
    rw [(parseFormat_panic_iff hE _).2 hu] at h1
    cases h1
  by_cases hp : PositionalFirst args
  · have h3 : formatArgsMacro E format args ≠ .error .positionalAfterNamed :=
      fun h => C42_errors_explained hE format args _ h hp
    refine ⟨⟨fun h => absurd h h3, fun h => absurd hp h⟩, ?_, ?_⟩
    · refine ⟨fun h => ⟨hp, (C42_errors_explained hE format args _ h).2⟩, fun ⟨_, hu⟩ => ?_⟩
      rcases formatArgsMacro_no_tree hE format args (hnot hu) with ⟨h, -⟩ | ⟨-, h⟩ | ⟨h, -⟩
      · exact absurd ((parseFormat_panic_iff hE _).2 hu) h
      · exact h
      · exact absurd hp h
    · refine ⟨fun h => ⟨hp, C42_errors_explained hE format args _ h⟩, fun ⟨_, ht, hu⟩ => ?_⟩
      rcases formatArgsMacro_no_tree hE format args ht with ⟨-, h⟩ | ⟨h, -⟩ | ⟨h, -⟩
      · exact h
      · exact absurd ((parseFormat_panic_iff hE _).1 h) hu
      · exact absurd hp h
  · have h3 : formatArgsMacro E format args = .error .positionalAfterNamed := by
      unfold formatArgsMacro
      rcases parse_cases format args with ⟨h1, -⟩ | ⟨-, e1⟩
      · exact absurd h1 hp
      · rw [e1]; rfl
    rw [h3]
    refine ⟨⟨fun _ => hp, fun _ => rfl⟩, ⟨nofun, fun h => absurd h.1 hp⟩, ⟨nofun, fun h => absurd h.1 hp⟩⟩

/-- `a{0:*>b` has an unsupported fill, `{: >b}` does not. -/
example : UnsupportedFill asciiEnv (str "a{0:*>b") ∧ ¬ UnsupportedFill asciiEnv (str "{: >b}") := by
  refine ⟨⟨[.text (str "a")], some (.index (str "0")), '*', .Right, str "b", ⟨?_, trivial⟩, ⟨?_, nofun, trivial⟩,
    ?_, by decide, by decide +kernel⟩, ?_⟩
  · simp only [List.mem_singleton]; rintro p rfl; exact ⟨by decide +kernel, by decide +kernel, by decide +kernel⟩
  · simp only [List.mem_singleton]; rintro p rfl; trivial
  · rintro _ ⟨⟩
    exact ⟨⟨by decide +kernel, by decide +kernel⟩, by
      show numeralValue (str "0") ≤ asciiEnv.usizeMax
      decide +kernel⟩
  · intro h
    have := (C42_format_errors_iff asciiEnv_lawful (str "{: >b}") [.positional 1]).2.1.2 ⟨⟨[1], [], rfl⟩, h⟩
    have h2 : compileError (formatArgsMacro asciiEnv (str "{: >b}") [.positional 1]) = none := by decide +kernel
    rw [this] at h2
    cases h2

/-- Each of the errors occurs. -/
example : compileError (formatArgsMacro asciiEnv (str "{") ([] : List (MacroArg Nat))) = some .parse ∧
    compileError (formatArgsMacro asciiEnv (str "{:*<}") [.positional 1]) = some .fillTodo ∧
    compileError (formatArgsMacro asciiEnv (str "{}") [.named (str "a") 1, .positional 1]) = some .positionalAfterNamed ∧
    compileError (formatArgsMacro asciiEnv (str "{}{}") [.positional 1]) = some .missingArgument ∧
    compileError (formatArgsMacro asciiEnv (str "{7}") [.positional 1]) = some (.missingPositional 7) ∧
    compileError (formatArgsMacro asciiEnv (str "{self}") ([] : List (MacroArg Nat))) = some (.badRawIdent (str "self")) ∧
    compileError (formatArgsMacro asciiEnv (str "{:a$}") [.positional 1]) = some .countParameterTodo ∧
    compileError (formatArgsMacro asciiEnv (str "{a}") [.positional 1]) = some .unusedArguments := by
  decide +kernel

end Stylish.Props
