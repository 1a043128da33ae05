import Verif.Model.Rust
import Verif.Model.MacroInput
/-
The code the macros generate: the `quote!`s of /repo/macros/src/lib.rs:98-225 and /repo/macros/src/to_tokens.rs, as
expressions of Model/Rust.lean. Model/Expand.lean has the same functions with the meaning of the generated code in place
of the code.

Not modelled: the attribute `#[inline]`, the type `usize` of integer literals.
-/

namespace Stylish.Tokens

open Format Rust

variable {Y : Type}

/-- `#export::..` (macros/src/lib.rs:107, to_tokens.rs:50-239) -/
def path (segments : List String) : RExpr Y := .«export» (segments.map str)

/-- An identifier of the macro's own. (`quote!`, macros/src/lib.rs:138-223) -/
def ours (name : String) : Ident := ⟨str name, .ours⟩

/-- macros/src/to_tokens.rs:11-24 `quote_opt`. -/
def quoteOpt {A : Type} (toTokens : A → Compile (RExpr Y)) : Option A → Compile (RExpr Y)
  | some value => do
    let value ← toTokens value
    return .call (path ["Option", "Some"]) [value]
  | none => .ok (path ["Option", "None"])

/-- macros/src/to_tokens.rs:50-67 `ToTokens for Color`. -/
def color : Color → Compile (RExpr Y)
  | .Black => .ok (path ["Color", "Black"])
  | .Red => .ok (path ["Color", "Red"])
  | .Green => .ok (path ["Color", "Green"])
  | .Yellow => .ok (path ["Color", "Yellow"])
  | .Blue => .ok (path ["Color", "Blue"])
  | .Magenta => .ok (path ["Color", "Magenta"])
  | .Cyan => .ok (path ["Color", "Cyan"])
  | .White => .ok (path ["Color", "White"])
  | .Default => .ok (path ["Color", "Default"])
  | _ => .error .unreachableArm

/-- macros/src/to_tokens.rs:69-80 `ToTokens for Intensity`. -/
def intensity : Intensity → Compile (RExpr Y)
  | .Normal => .ok (path ["Intensity", "Normal"])
  | .Bold => .ok (path ["Intensity", "Bold"])
  | .Faint => .ok (path ["Intensity", "Faint"])

/-- macros/src/to_tokens.rs:102-104, 106-108, 110-112: `diff.field = Some(value);`, if there is a value, and what
follows. -/
def assign {A : Type} (field : String) (toTokens : A → Compile (RExpr Y)) (value : Option A) (rest : RExpr Y) :
    Compile (RExpr Y) :=
  match value with
  | some value => do
    let value ← toTokens value
    return .setField (ours "diff") (str field) (.call (.ident (ours "Some")) [value]) rest
  | none => .ok rest

/-- macros/src/to_tokens.rs:91-117 `ToTokens for StyleDiff`. The tokens are put together from the last to the first
here; the errors are those of the first attribute that has one, and all attributes have the same. -/
def styleDiff (d : StyleDiff) : Compile (RExpr Y) := do
  let inner := .ident (ours "diff")
  let inner ← assign "intensity" intensity d.intensity inner
  let inner ← assign "background" color d.background inner
  let inner ← assign "foreground" color d.foreground inner
  return .letMut (ours "diff") (.call (path ["StyleDiff", "default"]) []) inner

/-- macros/src/to_tokens.rs:119-129 `ToTokens for Align`. -/
def align : Align → Compile (RExpr Y)
  | .Left => .ok (path ["Align", "Left"])
  | .Center => .ok (path ["Align", "Center"])
  | .Right => .ok (path ["Align", "Right"])

/-- macros/src/to_tokens.rs:131-140 `ToTokens for Sign`. -/
def sign : Sign → Compile (RExpr Y)
  | .Plus => .ok (path ["Sign", "Plus"])
  | .Minus => .ok (path ["Sign", "Minus"])

/-- macros/src/to_tokens.rs:142-149 `ToTokens for Count`. -/
def count : Count → Compile (RExpr Y)
  | .Parameter _ => .error .countParameterTodo
  | .Integer value => .ok (.ref (.num value))

/-- macros/src/to_tokens.rs:151-160 `ToTokens for DebugHex`. -/
def debugHex : DebugHex → Compile (RExpr Y)
  | .Lower => .ok (path ["DebugHex", "Lower"])
  | .Upper => .ok (path ["DebugHex", "Upper"])

/-- macros/src/to_tokens.rs:162-192 `ToTokens for FormatterArgs`. -/
def formatterArgs (a : MFormatterArgs) : Compile (RExpr Y) := do
  let align ← quoteOpt align a.align
  let sign ← quoteOpt sign a.sign
  let width ← quoteOpt count a.width
  let precision ← quoteOpt count a.precision
  let debugHex ← quoteOpt debugHex a.debugHex
  return .ref (.struct [str "FormatterArgs"]
    (["align", "sign", "alternate", "zero", "width", "precision", "debug_hex"].map str)
    [align, sign, .bool a.alternate, .bool a.zero, width, precision, debugHex])

/-- macros/src/to_tokens.rs:194-210 `ToTokens for FormatTrait`. -/
def formatTrait : FormatTrait → Compile String
  | .Display => .ok "Display"
  | .Debug => .ok "Debug"
  | .Octal => .ok "Octal"
  | .LowerHex => .ok "LowerHex"
  | .UpperHex => .ok "UpperHex"
  | .Pointer => .ok "Pointer"
  | .Binary => .ok "Binary"
  | .LowerExp => .ok "LowerExp"
  | .UpperExp => .ok "UpperExp"
  | .Stylish => .error .unreachableArm

/-- macros/src/to_tokens.rs:212-239 `ToTokens for (FormatTrait, TokenStream)`. -/
def arg (tr : FormatTrait) (arg : RExpr Y) : Compile (RExpr Y) :=
  match tr with
  | .Stylish => .ok arg
  | tr => do
    let name ← formatTrait tr
    let inner := .struct [str "StdFmt"] [str "f"] [
      .ref (.matchIdent arg (ours "__stylish_arg")
        (.closure (ours "__stylish_formatter") [str "fmt", str "Formatter"]
          (.call (path ["fmt", name, "fmt"])
            [.ident (ours "__stylish_arg"), .ident (ours "__stylish_formatter")])))]
    return .call (path [if tr = .Debug then "StdFmtDebug" else "StdFmtOther"]) [inner]

/-- macros/src/lib.rs:156, 164, 170, 184: the tokens for an argument's value. -/
def slot : Slot → RExpr Y
  | .positional i => .field (.ident (ours "__stylish_positional_args")) i
  | .named i => .field (.ident (ours "__stylish_named_args")) i
  | .implicit i => .field (.ident (ours "__stylish_implicit_named_args")) i

/-- macros/src/lib.rs:135-200 one piece: its statement, without the `?;`. -/
def piece (numPositional : Nat) (names : List Str) (st : GenState) : Piece → Compile (RExpr Y × GenState)
  | .Lit lit => .ok (.call (path ["Formatter", "write_str"])
      [.ident (ours "__stylish_formatter"), .lit (replaceDoubleOpen lit)], st)
  | .Arg a => do
    let (s, st) ← resolveRef numPositional names st a.arg
    let value ← arg a.formatSpec.formatTrait (slot s)
    let args ← formatterArgs a.formatSpec.formatterArgs
    let style ← styleDiff a.formatSpec.style
    return (.call (path ["Display", "fmt"]) [.ref value,
      .refMut (.call (path ["Formatter", "with_args"]) [.ident (ours "__stylish_formatter"), args, style])], st)

/-- macros/src/lib.rs:132-201 all pieces. -/
def pieces (numPositional : Nat) (names : List Str) (st : GenState) : List Piece → Compile (List (RExpr Y) × GenState)
  | [] => .ok ([], st)
  | p :: ps => do
    let (s, st) ← piece numPositional names st p
    let (ss, st) ← pieces numPositional names st ps
    return (s :: ss, st)

/-- macros/src/lib.rs:218-219 `#(#statements;)*  #export::fmt::Result::Ok(())`, each statement with its `?`. -/
def body : List (RExpr Y) → RExpr Y
  | [] => .call (path ["fmt", "Result", "Ok"]) [.tuple []]
  | s :: ss => .tryThen s (body ss)

/-- macros/src/lib.rs:98-225 `format_args_impl`. -/
def formatArgsImpl (E : Env) (input : ArgsInput Y) : Compile (RExpr Y) := do
  let format ← parsePieces E input.format
  let numPositional := input.positionalArgs.length
  let positional : RExpr Y := .tuple (input.positionalArgs.map fun e => .ref (.user e))
  let names := input.namedArgs.map Prod.fst
  let named : RExpr Y := .tuple (input.namedArgs.map fun e => .ref (.user e.2))
  let (statements, st) ← pieces numPositional names ⟨[], [], [], 0⟩ format
  if hasUnused numPositional names st then .error .unusedArguments
  else
    let implicit : RExpr Y := .tuple (st.implicit.map fun name => .ref (.ident ⟨name, .callers⟩))
    .ok (.struct [str "Arguments"] [str "f"] [
      .ref (.matchTuple (.tuple [positional, named, implicit])
        [ours "__stylish_positional_args", ours "__stylish_named_args", ours "__stylish_implicit_named_args"]
        (.closure (ours "__stylish_formatter") [str "Formatter"] (body statements)))])

/-- macros/src/lib.rs:229-234 `format_args!`. -/
def formatArgsCall (E : Env) (toks : List (Tok Y)) : Except CallError (RExpr (SynExpr Y)) := do
  let (krate, input) ← parseInput toks
  match krate with
  | none => .error .noCrate
  | some _ => laterPhase (formatArgsImpl E input)

/-- macros/src/lib.rs:238-245 `format_args_nl!`. -/
def formatArgsNlCall (E : Env) (toks : List (Tok Y)) : Except CallError (RExpr (SynExpr Y)) := do
  let (krate, input) ← parseInput toks
  match krate with
  | none => .error .noCrate
  | some _ => laterPhase (formatArgsImpl E { input with format := input.format ++ str "\n" })

end Stylish.Tokens
