import Verif.Spec.Front
import Verif.Props.MacroCall
import Verif.Props.MacroArgs
import Verif.Props.MacroNl
/-
Properties of the macros as a user calls them: C63, C64.
-/

namespace Stylish.Props

open Spec Spec.Syntax

variable {Y St W A : Type}

/-! ## Lemmas -/

theorem restMatches_argTokens (args : List (Tok Y)) (trailing : Bool) :
    restMatches (Spec.argTokens args trailing) = true := by
  cases args with
  | nil => cases trailing <;> rfl
  | cons a args => rfl

theorem withCrate_call (s : Str) (args : List (Tok Y)) (trailing : Bool) :
    withCrate (.lit s :: Spec.argTokens args trailing) =
      callTokens false [⟨str "$crate", true⟩] s args trailing := rfl

theorem splitArgs_meaning {X Z : Type} (g : X → Z) (args : List (MacroArg X)) (b : Bool) (pos : List X)
    (named : List (Str × X)) :
    splitArgs b (pos.map g) (named.map fun p => (p.1, g p.2)) (args.map (argMeaning g)) =
      (splitArgs b pos named args).map
        (fun r => (r.1.map g, r.2.map fun p => (p.1, g p.2))) := by
  induction args generalizing b pos named with
  | nil => rfl
  | cons a args ih =>
    cases a with
    | named n e =>
      have := ih true pos (named ++ [(n, e)])
      simpa [splitArgs, argMeaning] using this
    | positional e =>
      have := ih b (pos ++ [e]) named
      cases b
      · simpa [splitArgs, argMeaning] using this
      · rfl

theorem formatArgsMacro_meaning {X Z : Type} (E : Env) (g : X → Z) (format : Str) (args : List (MacroArg X)) :
    formatArgsMacro E format (args.map (argMeaning g)) =
      (formatArgsMacro E format args).map (Expansion.mapArgs g) := by
  have h := splitArgs_meaning g args false [] []
  simp only [List.map_nil] at h
  unfold formatArgsMacro ArgsInput.parse
  rw [h]
  rcases splitArgs false [] [] args with e | ⟨pos, named⟩
  · rfl
  · simp only [Except.map, bind, Except.bind, formatArgsImpl, List.length_map, List.map_map,
      Function.comp_def]
    rcases parsePieces E format with e | pieces
    · rfl
    simp only
    have e : (named.map fun x => x.1) = named.map Prod.fst := rfl
    rw [e]
    rcases genPieces pos.length (named.map Prod.fst) ⟨[], [], [], 0⟩ pieces with e | ⟨stmts, st⟩
    · rfl
    simp only
    split
    · rfl
    · simp [Expansion.mapArgs, Function.comp_def]

theorem formatArgsFront_builtin (E : Env) (b : Builtins Y) (e : SynExpr Y) (s : Str) (h : b e = some s)
    (rest : List (Tok Y)) :
    formatArgsFront E b (.expr e :: rest) = formatArgsFront E b (.lit s :: rest) := by
  simp only [formatArgsFront, formatArgsInner, h]

/-! ## C63 -/

/-- C63: `format_args!(fmt, arg, ..)`, with or without a trailing comma, where `fmt` is a string literal or a
builtin macro call, is the macro applied to that format string and the arguments, `name = expr` being named
and everything else positional. -/
theorem C63_format_args (E : Env) (b : Builtins Y) (fmt : Tok Y) (s : Str) (hf : FormatText b fmt s)
    (ps : List (Tok Y × MacroArg (SynExpr Y))) (hp : ∀ p ∈ ps, ReadsAs p.1 p.2) (trailing : Bool) :
    formatArgsFront E b (fmt :: Spec.argTokens (ps.map Prod.fst) trailing) =
      laterPhase (formatArgsMacro E s (ps.map Prod.snd)) := by
  have key : formatArgsFront E b (.lit s :: Spec.argTokens (ps.map Prod.fst) trailing) =
      laterPhase (formatArgsMacro E s (ps.map Prod.snd)) := by
    simp only [formatArgsFront, formatArgsInner, restMatches_argTokens, if_true, withCrate_call]
    exact (C48_read_as_written E _ _ s ps hp trailing).1
  cases hf with
  | literal => exact key
  | builtin e _ h => rw [formatArgsFront_builtin E b e s h, key]

/-- C63: and nothing else is accepted. -/
theorem C63_only_calls (E : Env) (b : Builtins Y) (toks : List (Tok Y)) (x : Expansion (SynExpr Y))
    (h : formatArgsFront E b toks = .ok x) :
    ∃ (fmt : Tok Y) (s : Str) (ps : List (Tok Y × MacroArg (SynExpr Y))) (trailing : Bool),
      FormatText b fmt s ∧ (∀ p ∈ ps, ReadsAs p.1 p.2) ∧
      toks = fmt :: Spec.argTokens (ps.map Prod.fst) trailing ∧
      formatArgsMacro E s (ps.map Prod.snd) = .ok x := by
  have lit : ∀ (s : Str) (rest : List (Tok Y)), formatArgsFront E b (.lit s :: rest) = .ok x →
      ∃ (ps : List (Tok Y × MacroArg (SynExpr Y))) (trailing : Bool),
        (∀ p ∈ ps, ReadsAs p.1 p.2) ∧ rest = Spec.argTokens (ps.map Prod.fst) trailing ∧
        formatArgsMacro E s (ps.map Prod.snd) = .ok x := by
    intro s rest h
    simp only [formatArgsFront, formatArgsInner] at h
    split at h
    · obtain ⟨lead, segs, format, ps, tr, hp, e, hx⟩ := C48_only_calls E _ x h
      simp only [withCrate, callTokens, List.cons_append, List.nil_append, List.cons.injEq, Tok.lit.injEq,
        true_and] at e
      obtain ⟨-, rfl, e⟩ := e
      exact ⟨ps, tr, hp, e, hx⟩
    · cases h
  unfold formatArgsFront at h
  split at h
  · rename_i s rest
    split at h
    · rename_i hr
      obtain ⟨ps, tr, hp, e, hx⟩ := lit s rest (by simp only [formatArgsFront, hr, if_true]; exact h)
      exact ⟨_, s, ps, tr, .literal s, hp, by rw [e], hx⟩
    · cases h
  · rename_i e rest
    split at h
    · rename_i hr
      rcases hb : b e with _ | s
      · simp [formatArgsInner, hb] at h
      · have h' : formatArgsFront E b (.expr e :: rest) = .ok x := by
          simp only [formatArgsFront, hr, if_true]; exact h
        rw [formatArgsFront_builtin E b e s hb] at h'
        obtain ⟨ps, tr, hp, e', hx⟩ := lit s rest h'
        exact ⟨_, s, ps, tr, .builtin e s hb, hp, by rw [e'], hx⟩
    · cases h
  · cases h

/-- What evaluating an accepted call does: the arguments in the order written, each once. -/
theorem eval_mapArgs {E : Env} (hE : E.Lawful) (m : Meaning Y St) (vars : Str → ArgVal)
    (hv : ∀ n, m.var n = pureExpr (vars n)) (format : Str) (args : List (MacroArg (SynExpr Y)))
    (x : Expansion (SynExpr Y)) (h : formatArgsMacro E format args = .ok x) (st : St) :
    ∃ out, formatArgs E format (evalArgs (args.map (argMeaning m.expr)) st).1 vars = .ok out ∧
      (x.mapArgs m.expr).eval m.var st = (out, (evalArgs (args.map (argMeaning m.expr)) st).2) := by
  have e := formatArgsMacro_meaning E m.expr format args
  rw [h] at e
  have hm : m.var = fun n => pureExpr (vars n) := funext hv
  obtain ⟨h1, h2⟩ := C40_evaluated_once_in_order hE format _ vars _ e st
  rw [hm]
  exact ⟨_, h2, Prod.ext rfl h1⟩

/-- C63: `write!(dst, fmt, arg, ..)` compiles exactly if the format string and the arguments fit together.
It evaluates `dst`, then the arguments in the order written, each exactly once, and then calls `write_fmt` of
`dst` once, with the format string applied to their values. -/
theorem C63_write {E : Env} (hE : E.Lawful) (b : Builtins Y) (m : Meaning Y St) (vars : Str → ArgVal)
    (hv : ∀ n, m.var n = pureExpr (vars n)) (writeFmt : Arguments → W → A) (dst : St → W × St)
    (fmt : Tok Y) (s : Str) (hf : FormatText b fmt s)
    (ps : List (Tok Y × MacroArg (SynExpr Y))) (hp : ∀ p ∈ ps, ReadsAs p.1 p.2) (trailing : Bool) :
    ((∃ run, writeFront E b m writeFmt dst (.comma :: fmt :: Spec.argTokens (ps.map Prod.fst) trailing) =
        .ok run) ↔ Accepted E s (ps.map Prod.snd)) ∧
    ∀ run, writeFront E b m writeFmt dst (.comma :: fmt :: Spec.argTokens (ps.map Prod.fst) trailing) = .ok run →
      ∀ st, ∃ out,
        formatArgs E s (evalArgs ((ps.map Prod.snd).map (argMeaning m.expr)) (dst st).2).1 vars = .ok out ∧
        run st = (writeFmt out (dst st).1,
          (evalArgs ((ps.map Prod.snd).map (argMeaning m.expr)) (dst st).2).2) := by
  have hc : writeFront E b m writeFmt dst (.comma :: fmt :: Spec.argTokens (ps.map Prod.fst) trailing) =
      (laterPhase (formatArgsMacro E s (ps.map Prod.snd))).map (callWriteFmt m writeFmt dst) := by
    simp only [writeFront, C63_format_args E b fmt s hf ps hp trailing]
    rfl
  rw [hc, ← C39_compiles_iff hE]
  rcases hx : formatArgsMacro E s (ps.map Prod.snd) with e | x
  · exact ⟨by simp [laterPhase, Except.map], by simp [laterPhase, Except.map]⟩
  · refine ⟨⟨fun _ => ⟨x, rfl⟩, fun _ => ⟨_, rfl⟩⟩, ?_⟩
    intro run hrun st
    obtain rfl := Except.ok.inj hrun
    obtain ⟨out, h1, h2⟩ := eval_mapArgs hE m vars hv s _ x hx (dst st).2
    refine ⟨out, h1, ?_⟩
    simp only [callWriteFmt, h2]

/-- C63: `format!(fmt, arg, ..)`, of any of the four crates, likewise: the arguments in the order written, each
exactly once, then that crate's `format` of the format string applied to their values. -/
theorem C63_format {E : Env} (hE : E.Lawful) (b : Builtins Y) (m : Meaning Y St) (vars : Str → ArgVal)
    (hv : ∀ n, m.var n = pureExpr (vars n)) (format : Arguments → A)
    (fmt : Tok Y) (s : Str) (hf : FormatText b fmt s)
    (ps : List (Tok Y × MacroArg (SynExpr Y))) (hp : ∀ p ∈ ps, ReadsAs p.1 p.2) (trailing : Bool) :
    ((∃ run, formatFront E b m format (fmt :: Spec.argTokens (ps.map Prod.fst) trailing) =
        .ok run) ↔ Accepted E s (ps.map Prod.snd)) ∧
    ∀ run, formatFront E b m format (fmt :: Spec.argTokens (ps.map Prod.fst) trailing) = .ok run →
      ∀ st, ∃ out,
        formatArgs E s (evalArgs ((ps.map Prod.snd).map (argMeaning m.expr)) st).1 vars = .ok out ∧
        run st = (format out, (evalArgs ((ps.map Prod.snd).map (argMeaning m.expr)) st).2) := by
  have hc : formatFront E b m format (fmt :: Spec.argTokens (ps.map Prod.fst) trailing) =
      (laterPhase (formatArgsMacro E s (ps.map Prod.snd))).map
        (fun x st => (format ((x.mapArgs m.expr).eval m.var st).1, ((x.mapArgs m.expr).eval m.var st).2)) := by
    simp only [formatFront, C63_format_args E b fmt s hf ps hp trailing]
    rfl
  rw [hc, ← C39_compiles_iff hE]
  rcases hx : formatArgsMacro E s (ps.map Prod.snd) with e | x
  · exact ⟨by simp [laterPhase, Except.map], by simp [laterPhase, Except.map]⟩
  · refine ⟨⟨fun _ => ⟨x, rfl⟩, fun _ => ⟨_, rfl⟩⟩, ?_⟩
    intro run hrun st
    obtain rfl := Except.ok.inj hrun
    obtain ⟨out, h1, h2⟩ := eval_mapArgs hE m vars hv s _ x hx st
    exact ⟨out, h1, by simp only [h2]⟩

/-- C63: `writeln!(dst, "fmt", arg, ..)` is `write!(dst, "fmt\n", arg, ..)`, and `writeln!(dst)` and
`writeln!(dst,)` are `write!(dst, "\n")`. -/
theorem C63_writeln (E : Env) (b : Builtins Y) (m : Meaning Y St) (writeFmt : Arguments → W → A)
    (dst : St → W × St) :
    (∀ (s : Str) (args : List (Tok Y)) (trailing : Bool),
      writelnFront E b m writeFmt dst (.comma :: .lit s :: Spec.argTokens args trailing) =
        writeFront E b m writeFmt dst (.comma :: .lit (s ++ ['\n']) :: Spec.argTokens args trailing)) ∧
    (∀ trailing : Bool, writelnFront E b m writeFmt dst (if trailing then [.comma] else []) =
      writeFront E b m writeFmt dst [.comma, .lit ['\n']]) := by
  refine ⟨fun s args trailing => ?_, fun trailing => by cases trailing <;> rfl⟩
  simp only [writelnFront, writeFront, formatArgsFront, formatArgsInner, restMatches_argTokens, if_true]
  congr 1
  unfold formatArgsNlCall formatArgsCall parseInput withCrate
  simp only [parseCrate, parseLit, bind, Except.bind]
  rcases argLoop false [] [] (Spec.argTokens args trailing) with e | ⟨pos, named⟩ <;> rfl

/-! ## C64 -/

/-- C64: in `format_args!`, `write!` and the `format!`s, a builtin macro call may stand for the literal it
expands to. Missing: `writeln!`, see `C64_writeln_counterexample`. -/
theorem C64_computed_format_partial (E : Env) (b : Builtins Y) (m : Meaning Y St)
    (writeFmt : Arguments → W → A) (dst : St → W × St) (format : Arguments → A) (e : SynExpr Y) (s : Str)
    (h : b e = some s) (rest : List (Tok Y)) :
    formatArgsFront E b (.expr e :: rest) = formatArgsFront E b (.lit s :: rest) ∧
    writeFront E b m writeFmt dst (.comma :: .expr e :: rest) =
      writeFront E b m writeFmt dst (.comma :: .lit s :: rest) ∧
    formatFront E b m format (.expr e :: rest) = formatFront E b m format (.lit s :: rest) := by
  refine ⟨formatArgsFront_builtin E b e s h rest, ?_, ?_⟩
  · simp only [writeFront, formatArgsFront_builtin E b e s h rest]
  · simp only [formatFront, formatArgsFront_builtin E b e s h rest]

/-- C64 fails for `writeln!`: with anything but a string literal as its format string it never compiles. -/
theorem C64_writeln_counterexample (E : Env) (b : Builtins Y) (m : Meaning Y St)
    (writeFmt : Arguments → W → A) (dst : St → W × St) (e : SynExpr Y) (rest : List (Tok Y)) :
    writelnFront E b m writeFmt dst (.comma :: .expr e :: rest) = .error .syntax := rfl

/-- C64 holds everywhere, `writeln!` included, when the crate is built with `stylish_proc_macro_expand`. -/
theorem C64_expand_cfg (E : Env) (b : Builtins Y) (e : SynExpr Y) (s : Str) (h : b e = some s)
    (rest : List (Tok Y)) :
    formatArgsFrontExpand E b (.expr e :: rest) = formatArgsFrontExpand E b (.lit s :: rest) ∧
    formatArgsNlCallExpand E b (withCrate (.expr e :: rest)) =
      formatArgsNlCallExpand E b (withCrate (.lit s :: rest)) ∧
    formatArgsFrontExpand E b (.lit s :: rest) = formatArgsFront E b (.lit s :: rest) ∧
    formatArgsNlCallExpand E b (withCrate (.lit s :: rest)) = formatArgsNlCall E (withCrate (.lit s :: rest)) := by
  have hp : parseInputExpand b (withCrate (.expr e :: rest)) =
      parseInputExpand b (withCrate (.lit s :: rest)) := by
    simp only [parseInputExpand, withCrate, parseCrate, parseLitExpand, bind, Except.bind, h]
  refine ⟨?_, ?_, ?_, ?_⟩
  · simp only [formatArgsFrontExpand, formatArgsCallExpand, hp]
  · simp only [formatArgsNlCallExpand, hp]
  · simp only [formatArgsFrontExpand, formatArgsFront, formatArgsInner]
    split <;> rfl
  · rfl

/-- C64: an expression that is not a builtin macro call is no format string: nothing that takes one compiles,
in either variant. -/
theorem C64_not_a_string (E : Env) (b : Builtins Y) (m : Meaning Y St)
    (writeFmt : Arguments → W → A) (dst : St → W × St) (format : Arguments → A) (e : SynExpr Y)
    (h : b e = none) (rest : List (Tok Y)) :
    formatArgsFront E b (.expr e :: rest) = .error .syntax ∧
    writeFront E b m writeFmt dst (.comma :: .expr e :: rest) = .error .syntax ∧
    formatFront E b m format (.expr e :: rest) = .error .syntax ∧
    formatArgsFrontExpand E b (.expr e :: rest) = .error .syntax ∧
    formatArgsNlCallExpand E b (withCrate (.expr e :: rest)) = .error .syntax := by
  have h1 : formatArgsFront E b (.expr e :: rest) = .error .syntax := by
    simp only [formatArgsFront, formatArgsInner, h]
    split <;> rfl
  have h2 : parseInputExpand b (withCrate (.expr e :: rest)) = .error .syntax := by
    simp only [parseInputExpand, withCrate, parseCrate, parseLitExpand, bind, Except.bind, h]
  refine ⟨h1, ?_, ?_, ?_, ?_⟩
  · simp only [writeFront, h1, bind, Except.bind]
  · simp only [formatFront, h1, bind, Except.bind]
  · simp only [formatArgsFrontExpand, formatArgsCallExpand, h2, bind, Except.bind]
    split <;> rfl
  · simp only [formatArgsNlCallExpand, h2, bind, Except.bind]

/-! ## Examples -/

/-- `other 0` is `concat!("{:(bold)}", "{a}{0}")`, every other expression records its evaluation. -/
def sampleBuiltins : Builtins Nat
  | .other 0 => some (str "{:(bold)}{a}{0}")
  | _ => none

/-- The meaning of the other expressions: text, with a record of the evaluation. -/
def sampleMeaning : Meaning Nat (List Str) where
  expr
    | .other 1 => logged (str "one") (textArg (str "x"))
    | .other 2 => logged (str "two") (textArg (str "y"))
    | _ => logged (str "?") (textArg (str "?"))
  var := fun n => pureExpr (noScope n)

/-- The arguments `one, a = two`. -/
def sampleArgs : List (Tok Nat × MacroArg (SynExpr Nat)) :=
  [(.expr (.other 1), .positional (.other 1)),
   (.expr (.assign (.path false false [⟨str "a", true⟩]) (.other 2)), .named (str "a") (.other 2))]

/-- Each of them is read as said (so the hypothesis about arguments is met). -/
theorem sampleArgs_read : ∀ p ∈ sampleArgs, ReadsAs p.1 p.2 := by
  intro p hp
  simp only [sampleArgs, List.mem_cons, List.not_mem_nil, or_false] at hp
  rcases hp with rfl | rfl
  · exact .positional _ (fun _ _ _ _ h => by cases h)
  · exact .named _ _ _ _

/-- `write!(dst, concat!(..), one, a = two,)`: what is recorded, and what is written. -/
example : (writeFront asciiEnv sampleBuiltins sampleMeaning
      (fun args (_ : Unit) => writes args.f .default .default) (fun log => ((), log ++ [str "dst"]))
      (.comma :: .expr (.other 0) :: Spec.argTokens (sampleArgs.map Prod.fst) true)).toOption.map (fun run => run []) =
    some (([(str "x", ⟨.Default, .Default, .Bold⟩), (str "y", .default), (str "x", .default)], .ok ()),
      [str "dst", str "one", str "two"]) := by
  decide +kernel

/-- The same with `writeln!` does not compile, with the literal instead of `concat!` it does. -/
example : (writelnFront asciiEnv sampleBuiltins sampleMeaning
      (fun args (_ : Unit) => writes args.f .default .default) (fun log => ((), log ++ [str "dst"]))
      (.comma :: .expr (.other 0) :: Spec.argTokens (sampleArgs.map Prod.fst) true)).toOption.isNone ∧
    (writelnFront asciiEnv sampleBuiltins sampleMeaning
      (fun args (_ : Unit) => writes args.f .default .default) (fun log => ((), log ++ [str "dst"]))
      (.comma :: .lit (str "{:(bold)}{a}{0}") :: Spec.argTokens (sampleArgs.map Prod.fst) true)).toOption.map
        (fun run => run []) =
    some (([(str "x", ⟨.Default, .Default, .Bold⟩), (str "y", .default), (str "x", .default),
      (str "\n", .default)], .ok ()), [str "dst", str "one", str "two"]) := by
  decide +kernel

/-- C64_not_a_string applies, e.g. to a variable. -/
example : sampleBuiltins (.other 1) = none := rfl

end Stylish.Props
