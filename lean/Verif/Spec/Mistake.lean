import Verif.Spec.Macro
/-
Specification: what is wrong with a call, in the order in which a reader of the format string comes across it.
-/

namespace Stylish.Spec.Syntax

variable {X : Type}

/-- What is wrong with the reference of a placeholder, `before` being the pieces before it. -/
def refMistake (args : List (MacroArg X)) (before : List PieceSyn) : Option ArgRef → Option CompileError
  | none => if bareCount before < (positionals args).length then none else some .missingArgument
  | some (.index ds) =>
    if numeralValue ds < (positionals args).length then none else some (.missingPositional (numeralValue ds))
  | some (.name n) =>
    if n ∈ (nameds args).map Prod.fst then none
    else if n ∈ [str "_", str "super", str "self", str "Self", str "crate"] then some (.badRawIdent n)
    else none

/-- A width or precision that is taken from an argument is not implemented. -/
def countMistake (s : SpecSyn) : Option CompileError :=
  match s.width, s.precision with
  | some (.param _), _ => some .countParameterTodo
  | _, some (.count (.param _)) => some .countParameterTodo
  | _, _ => none

/-- What is wrong with a piece: the reference comes first. -/
def pieceMistake (args : List (MacroArg X)) (before : List PieceSyn) : PieceSyn → Option CompileError
  | .arg ref spec => (refMistake args before ref).or (countMistake (specOf spec))
  | _ => none

/-- What is wrong with the first piece that something is wrong with. -/
def firstMistake (args : List (MacroArg X)) (before : List PieceSyn) : List PieceSyn → Option CompileError
  | [] => none
  | p :: rest => (pieceMistake args before p).or (firstMistake args (before ++ [p]) rest)

end Stylish.Spec.Syntax
