import Verif.Props.Api
/-
C53: everything the library itself provides stops at the first failing write and passes the error on.
-/

namespace Stylish.Props

open Spec Spec.Syntax

/-- A std formatting implementation that propagates errors: whenever a write fails it returns that error at
once. -/
def StdPropagates : StdProg → Prop
  | .done _ => True
  | .panic => True
  | .write _ k => k .err = .done .err ∧ StdPropagates (k .ok)

/-- A value whose formatting implementations all propagate errors. -/
def ArgPropagates (v : ArgVal) : Prop := (∀ tr o, StdPropagates (v.std tr o)) ∧ Propagates v.stylish

/-- What it means for a program to stop at the first failure, seen from outside: there is one list of writes,
the same for all writers, and on any writer these are made one by one until one of them does not succeed;
nothing is written after that, and its failure is what the program returns. -/
def StopsAtFailure (d : Disp) : Prop :=
  ∀ (style : Style) (args : FormatterArgs), ∃ (log : List Chunk) (out : Res FmtError Unit),
    ∀ (W : Type) [Write W] (w : W),
      (d.run ⟨style, args, w⟩).2.write = (writeChunks log w).2 ∧
      ((writeChunks log w).1 = .ok () → (d.run ⟨style, args, w⟩).1 = out) ∧
      ((writeChunks log w).1 ≠ .ok () → (d.run ⟨style, args, w⟩).1 = (writeChunks log w).1)

theorem stops_of_propagates {d : Disp} (h : Propagates d) : StopsAtFailure d := by
  intro style args
  obtain ⟨log, out, hw⟩ := C06_writes_until_failure d h style args
  refine ⟨log, out, fun W _ w => ?_⟩
  obtain ⟨h1, h2, h3⟩ := hw W w
  exact ⟨by rw [h1], h2, h3⟩

attribute [local irreducible] stdOptsOf

theorem viaProxy_propagates (p : StdProg) (h : StdPropagates p) : Propagates p.viaProxy := by
  induction p with
  | done r => trivial
  | panic => trivial
  | write s k ih =>
    refine ⟨?_, ih _ h.2⟩
    show (k .err).viaProxy = _
    rw [h.1]
    rfl

theorem stdWrite_propagates (kind : StdKind) (arg : StdFmt) (h : ∀ o, StdPropagates (arg.f o)) :
    Propagates (stdWrite kind arg) := by
  unfold stdWrite Propagates
  intro style format
  simp only [stdOptsOf_eq]
  exact viaProxy_propagates _ (h _)

theorem wrapArg_propagates (tr : Format.FormatTrait) (v : ArgVal) (h : ArgPropagates v) :
    Propagates (wrapArg tr v) := by
  cases tr
  case Stylish => exact h.2
  all_goals exact stdWrite_propagates _ _ (h.1 _)

theorem runStmts_propagates (c : Captured) (hc : ∀ slot v, c.get slot = some v → ArgPropagates v)
    (stmts : List Stmt) : Propagates (runStmts c stmts) := by
  induction stmts with
  | nil => trivial
  | cons s rest ih =>
    cases s with
    | lit s => exact ⟨rfl, ih⟩
    | arg slot tr args style =>
      unfold runStmts
      split
      · trivial
      · rename_i v hv
        exact ⟨wrapArg_propagates tr v (hc slot v hv), rfl, ih⟩

/-- The value of an argument of a macro call. -/
def argValue {X : Type} : MacroArg X → X
  | .positional e => e
  | .named _ e => e

theorem splitArgs_mem {X : Type} (b : Bool) (args : List (MacroArg X)) (pos : List X) (named : List (Str × X))
    (p : List X × List (Str × X)) (h : splitArgs b pos named args = .ok p) :
    (∀ e ∈ p.1, e ∈ pos ∨ ∃ a ∈ args, argValue a = e) ∧
    (∀ e ∈ p.2, e ∈ named ∨ ∃ a ∈ args, argValue a = e.2) := by
  induction args generalizing b pos named with
  | nil =>
    obtain rfl := Except.ok.inj h
    exact ⟨fun e he => Or.inl he, fun e he => Or.inl he⟩
  | cons a args ih =>
    cases a with
    | positional e =>
      unfold splitArgs at h
      split at h
      · cases h
      · obtain ⟨h1, h2⟩ := ih _ _ _ h
        refine ⟨fun x hx => ?_, fun x hx => ?_⟩
        · rcases h1 x hx with h1 | ⟨a, ha, hx⟩
          · rcases List.mem_append.1 h1 with h1 | h1
            · exact Or.inl h1
            · exact Or.inr ⟨.positional e, by simp, (List.mem_singleton.1 h1).symm⟩
          · exact Or.inr ⟨a, by simp [ha], hx⟩
        · rcases h2 x hx with h2 | ⟨a, ha, hx⟩
          · exact Or.inl h2
          · exact Or.inr ⟨a, by simp [ha], hx⟩
    | named n e =>
      unfold splitArgs at h
      obtain ⟨h1, h2⟩ := ih _ _ _ h
      refine ⟨fun x hx => ?_, fun x hx => ?_⟩
      · rcases h1 x hx with h1 | ⟨a, ha, hx⟩
        · exact Or.inl h1
        · exact Or.inr ⟨a, by simp [ha], hx⟩
      · rcases h2 x hx with h2 | ⟨a, ha, hx⟩
        · rcases List.mem_append.1 h2 with h2 | h2
          · exact Or.inl h2
          · exact Or.inr ⟨.named n e, by simp, by rw [List.mem_singleton.1 h2]; rfl⟩
        · exact Or.inr ⟨a, by simp [ha], hx⟩

theorem impl_propagates {E : Env} (input : ArgsInput ArgVal) (scope : Str → ArgVal)
    (hp : ∀ e ∈ input.positionalArgs, ArgPropagates e) (hn : ∀ e ∈ input.namedArgs, ArgPropagates e.2)
    (hs : ∀ n, ArgPropagates (scope n)) (x : Expansion ArgVal) (h : formatArgsImpl E input = .ok x) :
    Propagates (runStmts ⟨x.positional, x.named, x.implicit.map scope⟩ x.statements) := by
  have hx : x.positional = input.positionalArgs ∧ x.named = input.namedArgs.map Prod.snd := by
    unfold formatArgsImpl at h
    simp only [bind, Except.bind] at h
    split at h
    · cases h
    · split at h
      · cases h
      · split at h
        · cases h
        · obtain rfl := Except.ok.inj h
          exact ⟨rfl, rfl⟩
  refine runStmts_propagates _ (fun slot v hv => ?_) _
  cases slot with
  | positional i =>
    have := List.mem_of_getElem? hv
    simp only [hx.1] at this
    exact hp _ this
  | named i =>
    have := List.mem_of_getElem? hv
    simp only [hx.2, List.mem_map] at this
    obtain ⟨e, he, rfl⟩ := this
    exact hn _ he
  | implicit i =>
    have := List.mem_of_getElem? hv
    simp only [List.mem_map] at this
    obtain ⟨n, -, rfl⟩ := this
    exact hs n

/-- C53: `format_args!`: if the values formatted propagate errors, then so does the result (so it can be a value
of another `format_args!`), and it stops at the first failure on every writer. -/
theorem C53_format_args {E : Env} (format : Str) (args : List (MacroArg ArgVal)) (scope : Str → ArgVal)
    (hargs : ∀ a ∈ args, ArgPropagates (argValue a)) (hscope : ∀ n, ArgPropagates (scope n))
    (x : Arguments) (h : formatArgs E format args scope = .ok x) :
    Propagates (Display.fmt x) ∧ StopsAtFailure (Display.fmt x) := by
  have key : Propagates (Display.fmt x) := by
    unfold formatArgs ArgsInput.parse at h
    rcases hsp : splitArgs false [] [] args with e | ⟨pos, named⟩
    · rw [hsp] at h; cases h
    · rw [hsp] at h
      simp only [bind, Except.bind] at h
      rcases hx : formatArgsImpl E ⟨format, pos, named⟩ with e | y
      · rw [hx] at h; cases h
      · rw [hx] at h
        obtain rfl := Except.ok.inj h
        obtain ⟨h1, h2⟩ := splitArgs_mem _ _ _ _ _ hsp
        refine impl_propagates _ scope (fun e he => ?_) (fun e he => ?_) hscope y hx
        · rcases h1 e he with h1 | ⟨a, ha, rfl⟩
          · cases h1
          · exact hargs a ha
        · rcases h2 e he with h2 | ⟨a, ha, h2⟩
          · cases h2
          · exact h2 ▸ hargs a ha
  exact ⟨key, stops_of_propagates key⟩

/-- C53: the same for the arguments made by `writeln!`. -/
theorem C53_format_args_nl {E : Env} (format : Str) (args : List (MacroArg ArgVal)) (scope : Str → ArgVal)
    (hargs : ∀ a ∈ args, ArgPropagates (argValue a)) (hscope : ∀ n, ArgPropagates (scope n))
    (x : Arguments) (h : formatArgsNl E format args scope = .ok x) :
    Propagates (Display.fmt x) ∧ StopsAtFailure (Display.fmt x) := by
  refine C53_format_args (E := E) (format ++ str "\n") args scope hargs hscope x ?_
  rw [← h]
  unfold formatArgs formatArgsNl ArgsInput.parse
  rcases splitArgs false [] [] args with e | ⟨pos, named⟩ <;> rfl

/-- C53: displaying an attributed `String` stops at the first failure on every writer and returns the error. -/
theorem C53_string (s : StyString) : Propagates (Display.fmt s) ∧ StopsAtFailure (Display.fmt s) :=
  ⟨StyString.propagates_fmtFrom _ _, stops_of_propagates (StyString.propagates_fmtFrom _ _)⟩

/-- C53: a std formatted value stops at the first failure if its std implementation does. -/
theorem C53_std (kind : StdKind) (arg : StdFmt) (h : ∀ o, StdPropagates (arg.f o)) :
    Propagates (stdWrite kind arg) ∧ StopsAtFailure (stdWrite kind arg) :=
  ⟨stdWrite_propagates kind arg h, stops_of_propagates (stdWrite_propagates kind arg h)⟩

/-- Values that show a text satisfy the hypotheses. -/
theorem textArg_propagates (s : Str) : ArgPropagates (textArg s) :=
  ⟨fun _ _ => ⟨rfl, trivial⟩, rfl, trivial⟩

/-- Example: five pieces, on a writer that accepts two writes and then fails. -/
example : (formatArgs asciiEnv (str "a{}b{0:(bold)s}c") [.positional (textArg (str "X"))] noScope).toOption.map
      (fun x => (((Display.fmt x).run ⟨.default, .default, FailingWriter.mk 2 []⟩).1,
        ((Display.fmt x).run ⟨.default, .default, FailingWriter.mk 2 []⟩).2.write.log)) =
    some (.err (), [(str "a", Style.default), (str "X", Style.default)]) := by
  decide +kernel

/-- Example: an attributed string in three styles, on a writer that fails at the second write. -/
example :
    let s : StyString := (writeChunks [(['a'], Style.default), (['b'], ⟨.Red, .Default, .Bold⟩),
      (['c'], Style.default)] StyString.new).2
    (((Display.fmt s).run ⟨.default, .default, FailingWriter.mk 1 []⟩).1,
      ((Display.fmt s).run ⟨.default, .default, FailingWriter.mk 1 []⟩).2.write.log) =
    (.err (), [(['a'], Style.default)]) := by
  decide +kernel

end Stylish.Props
