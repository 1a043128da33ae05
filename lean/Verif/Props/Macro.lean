import Verif.Lemmas.MacroRun
import Verif.Props.Grammar
/-
Properties of the macros: C08, C37, C38, C39, C40, C41, C42, C46.

`Spec/Macro.lean` holds the specification: which calls are accepted (`Accepted`), which value a placeholder
shows (`valueFor`) and what a format string writes (`treeOutput`, and `treeRun` for writers that may fail).
-/

namespace Stylish.Props

open Nom Format Spec Spec.Syntax

variable {X : Type}

/-- No variables in scope are used. -/
def noScope : Str → ArgVal := fun _ => ⟨fun _ _ => .done .ok, .panic⟩

/-- An argument that shows the given text whatever the options are. -/
def textArg (s : Str) : ArgVal := ⟨fun _ _ => .write s .done, .writeStr s .done⟩

/-! ## C46 -/

/-- C46: formatting with an accepted format string has a reading, and for any reading of it writes exactly
what `treeOutput` says: each literal in the current style, each argument's own output in the style of its
placeholder, in order, up to the first error. -/
theorem C46_end_to_end {E : Env} (hE : E.Lawful) (format : Str) (args : List (MacroArg ArgVal))
    (scope : Str → ArgVal) (x : Arguments) (h : formatArgs E format args scope = .ok x) :
    (∃ t, Reads E format t) ∧
    ∀ t, Reads E format t → ∀ st a,
      writes (Display.fmt x) st a = treeOutput args scope st [] t := by
  obtain ⟨t, h1, h2, h3, -⟩ := formatArgs_ok_tree hE h
  refine ⟨⟨t, h1, h2, h3⟩, ?_⟩
  rintro t' ⟨rfl, hd, hs⟩ st a
  rcases formatArgs_tree hE args scope t' hd hs with ⟨⟨-, hr, -⟩, e⟩ | ⟨-, e, he⟩
  · rw [e] at h
    obtain rfl := Except.ok.inj h
    exact (treeProg_spec args scope t' hr st a).1
  · rw [he] at h; cases h

/-- C46 for any writer, including those that fail: the pieces are run one after the other on the writer and
the first failure ends the formatting. -/
theorem C46_any_writer {E : Env} (hE : E.Lawful) (format : Str) (args : List (MacroArg ArgVal))
    (scope : Str → ArgVal) (x : Arguments) (h : formatArgs E format args scope = .ok x)
    (t : List PieceSyn) (ht : Reads E format t) (W : Type) [Write W] (f : Formatter W) :
    Formatter.writeFmt x f =
      ((treeRun args scope f.style [] t f.write).1,
        { f with write := (treeRun args scope f.style [] t f.write).2 }) := by
  obtain ⟨rfl, hd, hs⟩ := ht
  rcases formatArgs_tree hE args scope t hd hs with ⟨⟨-, hr, -⟩, e⟩ | ⟨-, e, he⟩
  · rw [e] at h
    obtain rfl := Except.ok.inj h
    have := (treeProg_spec args scope t hr f.style f.format).2 W f.write
    show (do (treeProg args scope t).run; return () : Act (Formatter W) FmtError Unit) f = _
    have e2 : (⟨f.style, f.format, f.write⟩ : Formatter W) = f := rfl
    rw [e2] at this
    simp only [bind, Act.bind, this]
    cases (treeRun args scope f.style [] t f.write).1 <;> rfl
  · rw [he] at h; cases h

/-- C46 on an example: `a{{{0:(bold)}{name:s}` with an argument and a captured variable. -/
example : (formatArgs asciiEnv (str "a{{{0:(bold)}{name:s}") [.positional (textArg (str "x"))]
      (fun n => textArg (n ++ ['!']))).toOption.map
        (fun x => writes (Display.fmt x) ⟨.Red, .Default, .Normal⟩ .default) =
      some ([(['a'], ⟨.Red, .Default, .Normal⟩), (['{'], ⟨.Red, .Default, .Normal⟩),
        (['x'], ⟨.Red, .Default, .Bold⟩), (str "name!", ⟨.Red, .Default, .Normal⟩)], .ok ()) := by
  decide +kernel

/-! ## C08 -/

/-- C08: what an `Arguments` value writes does not depend on the options of the formatter. -/
theorem C08_options_do_not_leak {E : Env} (hE : E.Lawful) (format : Str) (args : List (MacroArg ArgVal))
    (scope : Str → ArgVal) (x : Arguments) (h : formatArgs E format args scope = .ok x)
    (st : Style) (a a' : FormatterArgs) :
    writes (Display.fmt x) st a = writes (Display.fmt x) st a' := by
  obtain ⟨⟨t, ht⟩, h⟩ := C46_end_to_end hE format args scope x h
  rw [h t ht, h t ht]

/-- C08 on any writer: the result and the final writer are the same for all options. -/
theorem C08_any_writer {E : Env} (hE : E.Lawful) (format : Str) (args : List (MacroArg ArgVal))
    (scope : Str → ArgVal) (x : Arguments) (h : formatArgs E format args scope = .ok x)
    (W : Type) [Write W] (st : Style) (w : W) (a a' : FormatterArgs) :
    ((Display.fmt x).run ⟨st, a, w⟩).1 = ((Display.fmt x).run ⟨st, a', w⟩).1 ∧
    ((Display.fmt x).run ⟨st, a, w⟩).2.write = ((Display.fmt x).run ⟨st, a', w⟩).2.write := by
  obtain ⟨t, -, -, -, -, hr, -, rfl⟩ := formatArgs_ok_tree hE h
  have h1 := (treeProg_spec args scope t hr st a).2 W w
  have h2 := (treeProg_spec args scope t hr st a').2 W w
  show ((treeProg args scope t).run _).1 = ((treeProg args scope t).run _).1 ∧ ((treeProg args scope t).run _).2.write = ((treeProg args scope t).run _).2.write
  rw [h1, h2]
  exact ⟨rfl, rfl⟩

/-- C08, nested: an `Arguments` value shown with `{:s}` writes the same whatever options that placeholder
has: only the placeholder's style counts. -/
theorem C08_nested {E : Env} (hE : E.Lawful) (format : Str) (args : List (MacroArg ArgVal))
    (scope : Str → ArgVal) (x : Arguments) (h : formatArgs E format args scope = .ok x)
    (std : FormatTrait → StdOpts → StdProg) (s s' : SpecSyn) (hs : s.ty = .stylish) (hs' : s'.ty = .stylish)
    (ha : s.attrs = s'.attrs) (st : Style) :
    argOutput ⟨std, Display.fmt x⟩ s st = argOutput ⟨std, Display.fmt x⟩ s' st := by
  have e : s.style st = s'.style st := by
    unfold SpecSyn.style SpecSyn.attrList
    rw [ha]
  unfold argOutput
  rw [hs, hs', e]
  exact C08_options_do_not_leak hE format args scope x h _ _ _

/-! ## C39 -/

/-- The macro on the string of a tree. -/
theorem formatArgsMacro_tree {E : Env} (hE : E.Lawful) (args : List (MacroArg X))
    (t : List PieceSyn) (hd : Documented E t) (hs : Supported E t) :
    (PositionalFirst args ∧ RefsOk args t ∧ AllUsed args t) ∧
      formatArgsMacro E (print t) args = .ok (expansionOf args t) ∨
    ¬ (PositionalFirst args ∧ RefsOk args t ∧ AllUsed args t) ∧
      ∃ e, formatArgsMacro E (print t) args = .error e ∧
        (PositionalFirst args ∧ GenError args t e ∨ ¬ PositionalFirst args ∧ e = .positionalAfterNamed) := by
  unfold formatArgsMacro
  rcases parse_cases (print t) args with ⟨h1, e1⟩ | ⟨h1, e1⟩
  · rw [e1]
    rcases formatArgsImpl_tree hE args t hd hs with ⟨h2, e2⟩ | ⟨h2, e, e2, h3⟩
    · left
      exact ⟨⟨h1, h2⟩, by simp only [bind, Except.bind, e2]⟩
    · right
      exact ⟨fun h => h2 h.2, e, by simp only [bind, Except.bind, e2], Or.inl ⟨h1, h3⟩⟩
  · right
    exact ⟨fun h => h1 h.1, _, by rw [e1]; rfl, Or.inr ⟨h1, rfl⟩⟩

theorem formatArgsMacro_no_tree {E : Env} (hE : E.Lawful) (format : Str) (args : List (MacroArg X))
    (h : ¬ ∃ t, Reads E format t) :
    parseFormat E format ≠ .panic ∧ formatArgsMacro E format args = .error .parse ∨
    parseFormat E format = .panic ∧ formatArgsMacro E format args = .error .fillTodo ∨
    ¬ PositionalFirst args ∧ formatArgsMacro E format args = .error .positionalAfterNamed := by
  unfold formatArgsMacro
  rcases parse_cases format args with ⟨h1, e1⟩ | ⟨h1, e1⟩
  · rw [e1]
    rcases formatArgsImpl_no_tree hE ⟨format, positionals args, nameds args⟩ h with ⟨hp, e⟩ | ⟨hp, e⟩
    · left; exact ⟨hp, by simp only [bind, Except.bind, e]⟩
    · right; left; exact ⟨hp, by simp only [bind, Except.bind, e]⟩
  · right; right
    exact ⟨h1, by rw [e1]; rfl⟩

/-- C39: the macro compiles if and only if the format string is supported syntax, positional arguments come
first, all references exist, and all arguments are used. -/
theorem C39_compiles_iff {E : Env} (hE : E.Lawful) (format : Str) (args : List (MacroArg X)) :
    (∃ x, formatArgsMacro E format args = .ok x) ↔ Accepted E format args := by
  constructor
  · rintro ⟨x, h⟩
    by_cases ht : ∃ t, Reads E format t
    · obtain ⟨t, rfl, hd, hs⟩ := ht
      rcases formatArgsMacro_tree hE args t hd hs with ⟨⟨h1, h2, h3⟩, -⟩ | ⟨-, e, he, -⟩
      · exact ⟨t, rfl, hd, hs, h1, h2, h3⟩
      · rw [he] at h; cases h
    · rcases formatArgsMacro_no_tree hE format args ht with ⟨-, e⟩ | ⟨-, e⟩ | ⟨-, e⟩ <;> rw [e] at h <;> cases h
  · rintro ⟨t, rfl, hd, hs, h1, h2, h3⟩
    rcases formatArgsMacro_tree hE args t hd hs with ⟨-, e⟩ | ⟨h, -⟩
    · exact ⟨_, e⟩
    · exact absurd ⟨h1, h2, h3⟩ h

/-- C39: a positional argument no placeholder shows is a compile error. -/
theorem C39_unused_positional {E : Env} (hE : E.Lawful) (format : Str) (args : List (MacroArg X))
    (t : List PieceSyn) (ht : Reads E format t) (i : Nat) (hi : i < (positionals args).length)
    (hu : ¬ UsesPositional t i) : ∃ e, formatArgsMacro E format args = .error e := by
  obtain ⟨rfl, hd, hs⟩ := ht
  rcases formatArgsMacro_tree hE args t hd hs with ⟨⟨-, -, h⟩, -⟩ | ⟨-, e, he, -⟩
  · exact absurd (h.1 i hi) hu
  · exact ⟨e, he⟩

/-- C39: a named argument no placeholder refers to is a compile error. -/
theorem C39_unused_named {E : Env} (hE : E.Lawful) (format : Str) (args : List (MacroArg X))
    (t : List PieceSyn) (ht : Reads E format t) (n : Str) (hn : n ∈ (nameds args).map Prod.fst)
    (hu : ¬ UsesName t n) : ∃ e, formatArgsMacro E format args = .error e := by
  obtain ⟨rfl, hd, hs⟩ := ht
  rcases formatArgsMacro_tree hE args t hd hs with ⟨⟨-, -, h⟩, -⟩ | ⟨-, e, he, -⟩
  · exact absurd (h.2 n hn) hu
  · exact ⟨e, he⟩

/-- The compile error, if any. -/
def compileError {A : Type} : Compile A → Option CompileError
  | .ok _ => none
  | .error e => some e

example : compileError (formatArgsMacro asciiEnv (str "{}") [.positional 1, .positional 2]) = some .unusedArguments ∧
    compileError (formatArgsMacro asciiEnv (str "{a}") [.positional 1, .named (str "a") 2]) = some .unusedArguments ∧
    compileError (formatArgsMacro asciiEnv (str "{1}") [.positional 1]) = some (.missingPositional 1) ∧
    compileError (formatArgsMacro asciiEnv (str "{1}{}{a}{0}{b}") [.positional 1, .positional 2, .named (str "a") 3]) = none := by
  decide +kernel

end Stylish.Props
