import Verif.Model.Expand
/-
Model of `ArgsInput::parse` (/repo/macros/src/lib.rs:33-96) on the tokens of the macro input.

`syn` turns the tokens of an expression into an `Expr`; here an expression is one token that carries it.
The `cfg(stylish_proc_macro_expand)` variant (lib.rs:46-60) is in Front.lean.
-/

namespace Stylish

/-- `syn::PathSegment` (external): the identifier as `to_string` prints it, and whether it has no generic
arguments (`PathArguments::None`). (used in macros/src/lib.rs:71-74) -/
structure PathSegment where
  ident : Str
  noArguments : Bool
  deriving DecidableEq, Repr

/-- `syn::Expr` (external): the two kinds the code looks at, and the rest. (used in macros/src/lib.rs:69-86) -/
inductive SynExpr (Y : Type) where
  /-- `Expr::Path`: whether there is a `<T>::` or a leading `::`, and the segments. -/
  | path (qself leadingColon : Bool) (segments : List PathSegment)
  /-- `Expr::Assign`: `left = right`. -/
  | assign (left right : SynExpr Y)
  /-- A string literal. -/
  | lit (s : Str)
  | other (e : Y)
  deriving DecidableEq, Repr

/-- A token of the macro input (macros/src/lib.rs:34-69); an expression counts as one, and so does a string
literal. -/
inductive Tok (Y : Type) where
  | crate
  | eq
  | comma
  | lit (s : Str)
  | expr (e : SynExpr Y)
  | junk
  deriving DecidableEq, Repr

/-- Why a macro call does not compile: a syntax error of `syn`, the missing crate (lib.rs:106), or one of
the errors of the later phases. (see macros/src/lib.rs:34-40, 69, 83, 106) -/
inductive CallError where
  | syntax
  | noCrate
  | later (e : CompileError)
  deriving DecidableEq, Repr

variable {Y : Type}

/-- `input.parse::<Expr>()` (syn). (used in macros/src/lib.rs:69) -/
def parseExpr : List (Tok Y) → Except CallError (SynExpr Y × List (Tok Y))
  | .expr e :: rest => .ok (e, rest)
  | .lit s :: rest => .ok (.lit s, rest)
  | _ => .error .syntax

/-- macros/src/lib.rs:70 the guard of the first `match` arm, on `left`; the result is the identifier the
arm's body takes (lib.rs:72-76). -/
def namedIdent : SynExpr Y → Option Str
  | .path _ _ [seg] => if seg.noArguments then some seg.ident else none
  | _ => none

/-- macros/src/lib.rs:69-87 the `match expr`: which kind of argument an expression is. -/
def classify : SynExpr Y → MacroArg (SynExpr Y)
  | .assign left right =>
    match namedIdent left with
    | some ident => .named ident right
    | none => .positional (.assign left right)
  | e => .positional e

/-- macros/src/lib.rs:63-88 the `while` loop. What is left over is an error of `parse_macro_input!`
(lib.rs:231, 240). -/
def argLoop (ontoNamed : Bool) (pos : List (SynExpr Y)) (named : List (Str × SynExpr Y)) :
    List (Tok Y) → Except CallError (List (SynExpr Y) × List (Str × SynExpr Y))
  | .comma :: [] => .ok (pos, named)
  | .comma :: tok :: rest =>
    match parseExpr (tok :: rest) with
    | .error e => .error e
    | .ok (e, _) =>
      match classify e with
      | .named ident right => argLoop true pos (named ++ [(ident, right)]) rest
      | .positional e =>
        if ontoNamed then .error (.later .positionalAfterNamed)
        else argLoop ontoNamed (pos ++ [e]) named rest
  | [] => .ok (pos, named)
  | _ => .error .syntax

/-- macros/src/lib.rs:35-43 the optional `crate = path ,`. -/
def parseCrate : List (Tok Y) → Except CallError (Option (SynExpr Y) × List (Tok Y))
  | .crate :: .eq :: .expr (.path false lead segs) :: .comma :: rest =>
    .ok (some (.path false lead segs), rest)
  | .crate :: _ => .error .syntax
  | toks => .ok (none, toks)

/-- macros/src/lib.rs:44-45 `let format = input.parse()?` with `format: LitStr`. -/
def parseLit : List (Tok Y) → Except CallError (Str × List (Tok Y))
  | .lit s :: rest => .ok (s, rest)
  | _ => .error .syntax

/-- macros/src/lib.rs:33-96 `ArgsInput::parse` under `parse_macro_input!`. -/
def parseInput (toks : List (Tok Y)) :
    Except CallError (Option (SynExpr Y) × ArgsInput (SynExpr Y)) := do
  let (krate, toks) ← parseCrate toks
  let (format, toks) ← parseLit toks
  let (pos, named) ← argLoop false [] [] toks
  return (krate, ⟨format, pos, named⟩)

/-- The errors of the later phases. (macros/src/lib.rs:231 after parsing) -/
def laterPhase {A : Type} : Compile A → Except CallError A
  | .ok a => .ok a
  | .error e => .error (.later e)

/-- macros/src/lib.rs:229-234 `format_args!`, with `krate.expect(..)` (106). -/
def formatArgsCall (E : Env) (toks : List (Tok Y)) : Except CallError (Expansion (SynExpr Y)) := do
  let (krate, input) ← parseInput toks
  match krate with
  | none => .error .noCrate
  | some _ => laterPhase (formatArgsImpl E input)

/-- macros/src/lib.rs:238-245 `format_args_nl!`. -/
def formatArgsNlCall (E : Env) (toks : List (Tok Y)) : Except CallError (Expansion (SynExpr Y)) := do
  let (krate, input) ← parseInput toks
  match krate with
  | none => .error .noCrate
  | some _ => laterPhase (formatArgsImpl E { input with format := input.format ++ str "\n" })

end Stylish
