import Verif.Model.MacroInput
/-
Model of the `macro_rules!` a user calls, on tokens: `format_args!` and `_format_args!`
(/repo/core/src/lib.rs:90-123), `write!` and `writeln!` (/repo/core/src/write.rs:135-169), the `format!`
macros (/repo/{core,plain,ansi,html}/src/format.rs), and the `cfg(stylish_proc_macro_expand)` variant of the
parser (/repo/macros/src/lib.rs:46-60).
-/

namespace Stylish

variable {Y : Type}

/-- What a builtin macro call (`concat!(..)`, `stringify!(..)`, `include_str!(..)`, ..) expands to, if the
expression is one: `with_builtin!` (external, core/src/lib.rs:109) and `expand_expr` (external,
macros/src/lib.rs:51). Any other expression is a compile error. -/
abbrev Builtins (Y : Type) := SynExpr Y → Option Str

/-- `$(, $($arg:tt)*)?`: nothing, or a comma and anything. (core/src/lib.rs:92, 95, 105, 108, 120) -/
def restMatches : List (Tok Y) → Bool
  | [] => true
  | .comma :: _ => true
  | _ => false

/-- `crate=$crate,` in front of the arguments. (core/src/lib.rs:106, 110, 121; core/src/write.rs:167) -/
def withCrate (toks : List (Tok Y)) : List (Tok Y) :=
  .crate :: .eq :: .expr (.path false false [⟨str "$crate", true⟩]) :: .comma :: toks

/-- core/src/lib.rs:104-114 `_format_args!`. A `literal` is passed on; an `expr` is evaluated first. -/
def formatArgsInner (E : Env) (builtins : Builtins Y) :
    List (Tok Y) → Except CallError (Expansion (SynExpr Y))
  | .lit s :: rest =>
    if restMatches rest then formatArgsCall E (withCrate (.lit s :: rest)) else .error .syntax
  | .expr e :: rest =>
    if restMatches rest then
      match builtins e with
      | some s => formatArgsCall E (withCrate (.lit s :: rest))
      | none => .error .syntax
    else .error .syntax
  | _ => .error .syntax

/-- core/src/lib.rs:91-98 `format_args!`: both arms hand the same tokens on. -/
def formatArgsFront (E : Env) (builtins : Builtins Y) :
    List (Tok Y) → Except CallError (Expansion (SynExpr Y))
  | .lit s :: rest =>
    if restMatches rest then formatArgsInner E builtins (.lit s :: rest) else .error .syntax
  | .expr e :: rest =>
    if restMatches rest then formatArgsInner E builtins (.expr e :: rest) else .error .syntax
  | _ => .error .syntax

/-- Replace the argument expressions of an expansion by what they stand for.
(the tokens of macros/src/lib.rs:116, 126 as expressions) -/
def Expansion.mapArgs {X Z : Type} (g : X → Z) (x : Expansion X) : Expansion Z :=
  ⟨x.positional.map g, x.named.map g, x.implicit, x.statements⟩

/-- What a macro call is compiled in: the value of each expression and of each variable, both perhaps with
effects on a state `St`. (the expressions in e.g. core/src/write.rs:138) -/
structure Meaning (Y St : Type) where
  expr : SynExpr Y → Expr St
  var : Str → Expr St

variable {St W A : Type}

/-- `$dst.write_fmt(<expansion>)`: the receiver is evaluated first. (core/src/write.rs:138, 167) -/
def callWriteFmt (m : Meaning Y St) (writeFmt : Arguments → W → A) (dst : St → W × St)
    (x : Expansion (SynExpr Y)) : St → A × St := fun st =>
  let (w, st) := dst st
  let (args, st) := (x.mapArgs m.expr).eval m.var st
  (writeFmt args w, st)

/-- core/src/write.rs:136-140 `write!`; `dst` is what the expression `$dst` means, the tokens are those
after it. -/
def writeFront (E : Env) (builtins : Builtins Y) (m : Meaning Y St) (writeFmt : Arguments → W → A)
    (dst : St → W × St) : List (Tok Y) → Except CallError (St → A × St)
  | .comma :: rest => do
    let x ← formatArgsFront E builtins rest
    return callWriteFmt m writeFmt dst x
  | _ => .error .syntax

/-- core/src/write.rs:162-169 `writeln!`. The second arm calls the proc macro `format_args_nl!` directly. -/
def writelnFront (E : Env) (builtins : Builtins Y) (m : Meaning Y St) (writeFmt : Arguments → W → A)
    (dst : St → W × St) : List (Tok Y) → Except CallError (St → A × St)
  | [] => writeFront E builtins m writeFmt dst [.comma, .lit (str "\n")]
  | [.comma] => writeFront E builtins m writeFmt dst [.comma, .lit (str "\n")]
  | .comma :: rest => do
    let x ← formatArgsNlCall E (withCrate rest)
    return callWriteFmt m writeFmt dst x
  | _ => .error .syntax

/-- core/src/format.rs:19-24, plain/src/format.rs:17-22, ansi/src/format.rs:18-23, html/src/format.rs:18-23
`format!`: all four are `$crate::format(format_args!(..))`, with the `format` of their crate. -/
def formatFront (E : Env) (builtins : Builtins Y) (m : Meaning Y St) (format : Arguments → A)
    (toks : List (Tok Y)) : Except CallError (St → A × St) := do
  let x ← formatArgsFront E builtins toks
  return fun st =>
    let (args, st) := (x.mapArgs m.expr).eval m.var st
    (format args, st)

/-! ### With `cfg(stylish_proc_macro_expand)` -/

/-- macros/src/lib.rs:46-60: the format string is any expression the compiler can expand to a literal. -/
def parseLitExpand (builtins : Builtins Y) : List (Tok Y) → Except CallError (Str × List (Tok Y))
  | .lit s :: rest => .ok (s, rest)
  | .expr e :: rest =>
    match builtins e with
    | some s => .ok (s, rest)
    | none => .error .syntax
  | _ => .error .syntax

/-- macros/src/lib.rs:33-96 `ArgsInput::parse` in this variant. -/
def parseInputExpand (builtins : Builtins Y) (toks : List (Tok Y)) :
    Except CallError (Option (SynExpr Y) × ArgsInput (SynExpr Y)) := do
  let (krate, toks) ← parseCrate toks
  let (format, toks) ← parseLitExpand builtins toks
  let (pos, named) ← argLoop false [] [] toks
  return (krate, ⟨format, pos, named⟩)

/-- macros/src/lib.rs:229-234 `format_args!` in this variant. -/
def formatArgsCallExpand (E : Env) (builtins : Builtins Y) (toks : List (Tok Y)) :
    Except CallError (Expansion (SynExpr Y)) := do
  let (krate, input) ← parseInputExpand builtins toks
  match krate with
  | none => .error .noCrate
  | some _ => laterPhase (formatArgsImpl E input)

/-- macros/src/lib.rs:238-245 `format_args_nl!` in this variant. -/
def formatArgsNlCallExpand (E : Env) (builtins : Builtins Y) (toks : List (Tok Y)) :
    Except CallError (Expansion (SynExpr Y)) := do
  let (krate, input) ← parseInputExpand builtins toks
  match krate with
  | none => .error .noCrate
  | some _ => laterPhase (formatArgsImpl E { input with format := input.format ++ str "\n" })

/-- core/src/lib.rs:91-98 and 119-123 `format_args!` in this variant: the tokens go to the proc macro. -/
def formatArgsFrontExpand (E : Env) (builtins : Builtins Y) :
    List (Tok Y) → Except CallError (Expansion (SynExpr Y))
  | .lit s :: rest =>
    if restMatches rest then formatArgsCallExpand E builtins (withCrate (.lit s :: rest))
    else .error .syntax
  | .expr e :: rest =>
    if restMatches rest then formatArgsCallExpand E builtins (withCrate (.expr e :: rest))
    else .error .syntax
  | _ => .error .syntax

end Stylish
