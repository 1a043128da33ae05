import Verif.Model.Format
import Verif.Model.StdWrite
import Verif.Model.Api
import Verif.Model.Io
/-
Model of /repo/macros/src/lib.rs (`format_args_impl`, `format_args`, `format_args_nl`) and
/repo/macros/src/to_tokens.rs.

The macro is modelled as a function from its parsed input to either a compile error (a Rust panic in the
proc macro, with its reason) or an `Expansion`: the abstract syntax of the generated expression. The
generated expression then has an evaluator (`Expansion.eval`). The tokens of
the macro input are in Model/MacroInput. The generated code as code, with the names it
mentions, is in Model/Tokens. Not modelled: spans of error messages.
-/

namespace Stylish

open Nom Format

/-- Why the proc macro (or the code it calls) panics, i.e. the compile error.
(macros/src/lib.rs, format.rs and to_tokens.rs, lines below; all in macros/src/lib.rs:98-225) -/
inductive CompileError where
  | parse               -- `Format::parse(&format).unwrap()`, lib.rs:112
  | fillTodo            -- `todo!()`, format.rs:179
  | positionalAfterNamed -- lib.rs:83
  | missingArgument     -- `next_arg_iter.next().expect("missing argument")`, lib.rs:153
  | missingPositional (i : Nat) -- lib.rs:161
  | badRawIdent (name : Str)    -- `Ident::new_raw` panics, lib.rs:176
  | countParameterTodo  -- `todo!("parameter reference counts ...")`, to_tokens.rs:145
  | unreachableArm      -- `unreachable!`, to_tokens.rs:63, 76, 206
  | unusedArguments     -- lib.rs:207
  deriving DecidableEq, Repr

/-- The outcome of running the proc macro of macros/src/lib.rs:230-245: the expansion, or its panic. -/
abbrev Compile := Except CompileError

/-- One argument of the macro call after the format string: an expression, or `name = expr`
(macros/src/lib.rs:64-88). `X` is the type of expressions. -/
inductive MacroArg (X : Type) where
  | positional (e : X)
  | named (name : Str) (e : X)

/-- macros/src/lib.rs:26-31 `struct ArgsInput` (without `krate`). -/
structure ArgsInput (X : Type) where
  format : Str
  positionalArgs : List X
  namedArgs : List (Str × X)

/-- macros/src/lib.rs:61-88 the argument loop of `ArgsInput::parse`. -/
def splitArgs {X : Type} (ontoNamed : Bool) (pos : List X) (named : List (Str × X)) :
    List (MacroArg X) → Compile (List X × List (Str × X))
  | [] => .ok (pos, named)
  | .named name e :: rest => splitArgs true pos (named ++ [(name, e)]) rest
  | .positional e :: rest =>
    if ontoNamed then .error .positionalAfterNamed
    else splitArgs ontoNamed (pos ++ [e]) named rest

/-- macros/src/lib.rs:33-96 `ArgsInput::parse`. -/
def ArgsInput.parse {X : Type} (format : Str) (args : List (MacroArg X)) : Compile (ArgsInput X) :=
  match splitArgs false [] [] args with
  | .ok (pos, named) => .ok ⟨format, pos, named⟩
  | .error e => .error e

/-- Where a placeholder's value comes from in the generated code: a field of one of the three tuples.
(macros/src/lib.rs:151-186, 215) -/
inductive Slot where
  | positional (i : Nat)   -- `__stylish_positional_args.i`
  | named (i : Nat)        -- `__stylish_named_args.i`
  | implicit (i : Nat)     -- `__stylish_implicit_named_args.i`
  deriving DecidableEq, Repr

/-- One generated statement (macros/src/lib.rs:135-200). -/
inductive Stmt where
  /-- `Formatter::write_str(__stylish_formatter, lit)?` -/
  | lit (s : Str)
  /-- `Display::fmt(&arg, &mut Formatter::with_args(__stylish_formatter, args, style))?` -/
  | arg (slot : Slot) (tr : FormatTrait) (args : FormatterArgs) (style : StyleDiff)
  deriving DecidableEq, Repr

/-- The generated expression (macros/src/lib.rs:209-224). -/
structure Expansion (X : Type) where
  positional : List X
  named : List X
  implicit : List Str
  statements : List Stmt

/-- `str::replace("{{", "{")` (std, external). (used in macros/src/lib.rs:137) -/
def replaceDoubleOpen : Str → Str
  | '{' :: '{' :: rest => '{' :: replaceDoubleOpen rest
  | c :: rest => c :: replaceDoubleOpen rest
  | [] => []

/-- `.collect::<HashMap<String, usize>>()` of `(name, index)` pairs and `get` (macros/src/lib.rs:118-123,
167): a later duplicate replaces an earlier one. -/
def namedIndex (names : List Str) (name : Str) : Option Nat :=
  (names.zipIdx.reverse.find? (fun p => p.1 == name)).map Prod.snd

/-- `Ident::new_raw` (proc_macro, external) panics for the names that cannot be raw identifiers.
(used in macros/src/lib.rs:176) -/
def canBeRaw (name : Str) : Bool :=
  !([str "_", str "super", str "self", str "Self", str "crate"].contains name)

/-- macros/src/to_tokens.rs:50-67 `ToTokens for Color` followed by evaluating the tokens. -/
def colorTokens : Color → Compile Color
  | .Black => .ok .Black
  | .Red => .ok .Red
  | .Green => .ok .Green
  | .Yellow => .ok .Yellow
  | .Blue => .ok .Blue
  | .Magenta => .ok .Magenta
  | .Cyan => .ok .Cyan
  | .White => .ok .White
  | .Default => .ok .Default
  | _ => .error .unreachableArm

/-- macros/src/to_tokens.rs:69-80 `ToTokens for Intensity`. -/
def intensityTokens : Intensity → Compile Intensity
  | .Normal => .ok .Normal
  | .Bold => .ok .Bold
  | .Faint => .ok .Faint

/-- macros/src/to_tokens.rs:91-117 `ToTokens for StyleDiff`: `let mut diff = StyleDiff::default();`
and one assignment per attribute present. -/
def styleDiffTokens (d : StyleDiff) : Compile StyleDiff := do
  let diff := StyleDiff.default
  let diff ← match d.foreground with
    | some foreground => do
      let c ← colorTokens foreground
      pure { diff with foreground := some c }
    | none => pure diff
  let diff ← match d.background with
    | some background => do
      let c ← colorTokens background
      pure { diff with background := some c }
    | none => pure diff
  match d.intensity with
    | some intensity => do
      let i ← intensityTokens intensity
      pure { diff with intensity := some i }
    | none => pure diff

/-- macros/src/to_tokens.rs:142-149 `ToTokens for Count`, under `quote_opt` (11-23). -/
def countTokens : Option Count → Compile (Option Nat)
  | none => .ok none
  | some (.Parameter _) => .error .countParameterTodo
  | some (.Integer n) => .ok (some n)

/-- macros/src/to_tokens.rs:119-129 `ToTokens for Align`, under `quote_opt`. -/
def alignTokens : Option Align → Option Align
  | none => none
  | some .Left => some .Left
  | some .Center => some .Center
  | some .Right => some .Right

/-- macros/src/to_tokens.rs:131-140 `ToTokens for Sign`, under `quote_opt`. -/
def signTokens : Option Sign → Option Sign
  | none => none
  | some .Plus => some .Plus
  | some .Minus => some .Minus

/-- macros/src/to_tokens.rs:151-160 `ToTokens for DebugHex`, under `quote_opt`. -/
def debugHexTokens : Option DebugHex → Option DebugHex
  | none => none
  | some .Lower => some .Lower
  | some .Upper => some .Upper

/-- macros/src/to_tokens.rs:162-192 `ToTokens for FormatterArgs`. -/
def formatterArgsTokens (a : MFormatterArgs) : Compile FormatterArgs := do
  let width ← countTokens a.width
  let precision ← countTokens a.precision
  return {
    align := alignTokens a.align
    sign := signTokens a.sign
    alternate := a.alternate
    zero := a.zero
    width := width
    precision := precision
    debugHex := debugHexTokens a.debugHex }

/-- macros/src/to_tokens.rs:194-210 `ToTokens for FormatTrait`. -/
def traitTokens : FormatTrait → Compile FormatTrait
  | .Display => .ok .Display
  | .Debug => .ok .Debug
  | .Octal => .ok .Octal
  | .LowerHex => .ok .LowerHex
  | .UpperHex => .ok .UpperHex
  | .Pointer => .ok .Pointer
  | .Binary => .ok .Binary
  | .LowerExp => .ok .LowerExp
  | .UpperExp => .ok .UpperExp
  | .Stylish => .error .unreachableArm

/-- macros/src/to_tokens.rs:212-239 `ToTokens for (FormatTrait, TokenStream)`: which trait's `fmt` the
generated code calls; `Stylish` stands for the argument itself. -/
def argTokens : FormatTrait → Compile FormatTrait
  | .Stylish => .ok .Stylish
  | formatTrait => traitTokens formatTrait

/-- The mutable state of the `.map(|piece| ..)` closure (macros/src/lib.rs:128-131): the implicit
captures so far, the used positions and names, and the position of `next_arg_iter`. -/
structure GenState where
  implicit : List Str
  usedPositional : List Nat
  usedNamed : List Str
  next : Nat

/-- macros/src/lib.rs:151-186 resolving the argument reference of one placeholder. -/
def resolveRef (numPositional : Nat) (names : List Str) (st : GenState) :
    Option FormatArgRef → Compile (Slot × GenState)
  | none =>
    if st.next < numPositional then
      .ok (.positional st.next,
        { st with next := st.next + 1, usedPositional := st.usedPositional ++ [st.next] })
    else .error .missingArgument
  | some (.Positional i) =>
    if i ≥ numPositional then .error (.missingPositional i)
    else .ok (.positional i, { st with usedPositional := st.usedPositional ++ [i] })
  | some (.Named name) =>
    match namedIndex names name with
    | some i => .ok (.named i, { st with usedNamed := st.usedNamed ++ [name] })
    | none =>
      if canBeRaw name then
        .ok (.implicit st.implicit.length, { st with implicit := st.implicit ++ [name] })
      else .error (.badRawIdent name)

/-- macros/src/lib.rs:135-200 one piece. The order of the checks inside one placeholder (reference
first, tokens at the end in `quote!`) only decides which of several compile errors is reported. -/
def genPiece (numPositional : Nat) (names : List Str) (st : GenState) :
    Piece → Compile (Stmt × GenState)
  | .Lit lit => .ok (.lit (replaceDoubleOpen lit), st)
  | .Arg a => do
    let (slot, st) ← resolveRef numPositional names st a.arg
    let tr ← argTokens a.formatSpec.formatTrait
    let args ← formatterArgsTokens a.formatSpec.formatterArgs
    let style ← styleDiffTokens a.formatSpec.style
    pure (.arg slot tr args style, st)

/-- macros/src/lib.rs:132-201 all pieces. -/
def genPieces (numPositional : Nat) (names : List Str) (st : GenState) :
    List Piece → Compile (List Stmt × GenState)
  | [] => .ok ([], st)
  | p :: ps => do
    let (s, st) ← genPiece numPositional names st p
    let (ss, st) ← genPieces numPositional names st ps
    pure (s :: ss, st)

/-- macros/src/lib.rs:112-113 `Format::parse(&format).unwrap()` and the assertion (implied by
`all_consuming`). -/
def parsePieces (E : Env) (format : Str) : Compile (List Piece) :=
  match parseFormat E format with
  | .ok _ pieces => .ok pieces
  | .error => .error .parse
  | .failure => .error .parse
  | .panic => .error .fillTodo

/-- macros/src/lib.rs:202-208 are there unused arguments? -/
def hasUnused (numPositional : Nat) (names : List Str) (st : GenState) : Bool :=
  (List.range numPositional).any (fun i => !st.usedPositional.contains i) ||
  names.any (fun n => !st.usedNamed.contains n)

/-- macros/src/lib.rs:98-225 `format_args_impl`. -/
def formatArgsImpl {X : Type} (E : Env) (input : ArgsInput X) : Compile (Expansion X) := do
  let pieces ← parsePieces E input.format
  let numPositional := input.positionalArgs.length
  let names := input.namedArgs.map Prod.fst
  let (statements, st) ← genPieces numPositional names ⟨[], [], [], 0⟩ pieces
  if hasUnused numPositional names st then .error .unusedArguments
  else .ok {
    positional := input.positionalArgs
    named := input.namedArgs.map Prod.snd
    implicit := st.implicit
    statements := statements }

/-- macros/src/lib.rs:229-234 `format_args!`. -/
def formatArgsMacro {X : Type} (E : Env) (format : Str) (args : List (MacroArg X)) :
    Compile (Expansion X) := do
  let input ← ArgsInput.parse format args
  formatArgsImpl E input

/-- macros/src/lib.rs:238-245 `format_args_nl!`. -/
def formatArgsNlMacro {X : Type} (E : Env) (format : Str) (args : List (MacroArg X)) :
    Compile (Expansion X) := do
  let input ← ArgsInput.parse format args
  formatArgsImpl E { input with format := input.format ++ str "\n" }

/-! ### Running the generated code -/

/-- The value of an argument: its std formatting implementations and its `stylish::Display`
implementation. (Rust's type checker guarantees that the ones used exist.)
(what `&#arg` is in macros/src/lib.rs:189-198) -/
structure ArgVal where
  std : FormatTrait → StdOpts → StdProg
  stylish : Disp

/-- The argument's own `impl stylish::Display`, which `{:s}` calls. (macros/src/to_tokens.rs:216) -/
instance : Display ArgVal := ⟨ArgVal.stylish⟩

/-- The three tuples the closure captures (macros/src/lib.rs:214-215). -/
structure Captured (V : Type := ArgVal) where
  positional : List V
  named : List V
  implicit : List V

/-- Tuple field access; out of range cannot type-check. (macros/src/lib.rs:156, 164, 170, 183) -/
def Captured.get {V : Type} (c : Captured V) : Slot → Option V
  | .positional i => c.positional[i]?
  | .named i => c.named[i]?
  | .implicit i => c.implicit[i]?

/-- macros/src/to_tokens.rs:212-239: what the tokens generated for an argument evaluate to: the value
itself for `{:s}`, else `StdFmtDebug`/`StdFmtOther` around the std trait's `fmt`. -/
def wrapArg (tr : FormatTrait) (v : ArgVal) : Disp :=
  match tr with
  | .Stylish => Display.fmt v
  | .Debug => Display.fmt (StdFmtDebug.mk ⟨v.std .Debug⟩)
  | tr => Display.fmt (StdFmtOther.mk ⟨v.std tr⟩)

/-- macros/src/lib.rs:217-220 the generated closure: the statements in order, each followed by `?`,
then `Ok(())`. -/
def runStmts (c : Captured) : List Stmt → Disp
  | [] => .done .ok
  | .lit s :: rest => .writeStr s (Disp.try_ (runStmts c rest))
  | .arg slot tr args style :: rest =>
    match c.get slot with
    | none => .panic
    | some v =>
      .withinArgs args (.of style) (wrapArg tr v) (Disp.try_ (runStmts c rest))

/-- Evaluation of argument expressions with side effects on a state `St`.
(the argument expressions of macros/src/lib.rs:116, 126) -/
abbrev Expr (St : Type) (V : Type := ArgVal) := St → V × St

/-- Evaluate a tuple expression: each component once, left to right (Rust evaluation order).
(the tuples of macros/src/lib.rs:116, 126, 210) -/
def evalTuple {St V : Type} : List (Expr St V) → St → List V × St
  | [], st => ([], st)
  | e :: es, st =>
    let (v, st) := e st
    let (vs, st) := evalTuple es st
    (v :: vs, st)

/-- macros/src/lib.rs:212-224 evaluating the generated expression: `match (positional, named, implicit)`
evaluates the three tuples in order and builds the `Arguments`. `scope` gives the expression for a
captured variable. -/
def Expansion.eval {St : Type} (x : Expansion (Expr St)) (scope : Str → Expr St) (st : St) :
    Arguments × St :=
  let (pos, st) := evalTuple x.positional st
  let (named, st) := evalTuple x.named st
  let (implicit, st) := evalTuple (x.implicit.map scope) st
  (⟨runStmts ⟨pos, named, implicit⟩ x.statements⟩, st)

/-- An argument expression without side effects.
(an instance of the argument expressions of macros/src/lib.rs:116) -/
def pureExpr {St V : Type} (v : V) : Expr St V := fun st => (v, st)

/-- `format_args!` with side-effect free arguments: the resulting `Arguments` value.
(macros/src/lib.rs:230-234 and evaluation of its result) -/
def formatArgs (E : Env) (format : Str) (args : List (MacroArg ArgVal)) (scope : Str → ArgVal) :
    Compile Arguments := do
  let input ← ArgsInput.parse format args
  let x ← formatArgsImpl E input
  pure ⟨runStmts ⟨x.positional, x.named, x.implicit.map scope⟩ x.statements⟩

/-- `format_args_nl!` with side-effect free arguments.
(macros/src/lib.rs:239-245 and evaluation of its result) -/
def formatArgsNl (E : Env) (format : Str) (args : List (MacroArg ArgVal)) (scope : Str → ArgVal) :
    Compile Arguments := do
  let input ← ArgsInput.parse format args
  let x ← formatArgsImpl E { input with format := input.format ++ str "\n" }
  pure ⟨runStmts ⟨x.positional, x.named, x.implicit.map scope⟩ x.statements⟩

/-- core/src/write.rs:136-140 `write!(dst, ..)` for any `dst` with a `write_fmt`. -/
def writeMacro {W A : Type} (E : Env) (writeFmt : Arguments → W → A) (dst : W) (format : Str)
    (args : List (MacroArg ArgVal)) (scope : Str → ArgVal) : Compile A := do
  return writeFmt (← formatArgs E format args scope) dst

/-- core/src/write.rs:166-168 `writeln!(dst, ..)`. -/
def writelnMacro {W A : Type} (E : Env) (writeFmt : Arguments → W → A) (dst : W) (format : Str)
    (args : List (MacroArg ArgVal)) (scope : Str → ArgVal) : Compile A := do
  return writeFmt (← formatArgsNl E format args scope) dst

/-- core/src/write.rs:163-165 `writeln!(dst)`. -/
def writelnMacroEmpty {W A : Type} (E : Env) (writeFmt : Arguments → W → A) (dst : W) : Compile A :=
  writeMacro E writeFmt dst (str "\n") [] (fun _ => ⟨fun _ _ => .done .ok, .panic⟩)

/-- `format_args!("{:s}", self)`: what the `to_*_string` methods pass to `format`
(core/src/to_string.rs:38, ansi/src/to_string.rs:40, html/src/to_string.rs:43, plain/src/to_string.rs:40). -/
def selfArgs (E : Env) (d : Disp) : Compile Arguments :=
  formatArgs E (str "{:s}") [.positional ⟨fun _ _ => .done .ok, d⟩] (fun _ => ⟨fun _ _ => .done .ok, .panic⟩)

/-- core/src/to_string.rs:37-39 `to_stylish_string`. -/
def toStylishString (E : Env) (d : Disp) : Compile (Res Empty StyString) := do
  return coreFormat (← selfArgs E d)

/-- ansi/src/to_string.rs:39-41 `to_ansi_string`. -/
def toAnsiString (E : Env) (d : Disp) : Compile (Res Empty Str) := do
  return ansiFormat (← selfArgs E d)

/-- html/src/to_string.rs:42-44 `to_html_string`. -/
def toHtmlString (E : Env) (d : Disp) : Compile (Res Empty Str) := do
  return htmlFormat (← selfArgs E d)

/-- plain/src/to_string.rs:39-41 `to_plain_string`. -/
def toPlainString (E : Env) (d : Disp) : Compile (Res Empty Str) := do
  return plainFormat (← selfArgs E d)

end Stylish
