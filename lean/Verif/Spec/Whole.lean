import Verif.Spec.Front
import Verif.Spec.Names
import Verif.Spec.Macro
/-
Specification: a call of a formatting macro in a place of a program, and the documented rules for it.
-/

namespace Stylish.Spec

open Rust Format Syntax

/-- The type of each argument and variable implements the traits of the placeholders it is shown by. The arguments and
variables are given by the traits their types implement. -/
def TraitsMet (args : List (MacroArg (FormatTrait → Bool))) (vars : Str → FormatTrait → Bool) (t : List PieceSyn) : Prop :=
  ∀ before ref spec after, t = before ++ .arg ref spec :: after →
    ∃ impls, valueFor args vars before ref = some impls ∧ impls (specOf spec).ty.trait = true

/-- A place in a program where the names of the prelude are in scope. -/
structure Place (Y St : Type) where
  /-- what is in scope -/
  scope : Scope
  callSite : CallSite scope
  preludeSome : PreludeSome scope
  preludeDefault : PreludeDefault scope
  /-- the caller's expressions: what they do, their value and the traits their types implement -/
  exprs : UserExprs (SynExpr Y) St
  meaning : SynExpr Y → Expr St
  types : SynExpr Y → FormatTrait → Bool
  exprsMean : ExprsMean exprs scope meaning types
  /-- the caller's variables -/
  vars : Str → Option TypedVal
  lookup : ∀ n, scope.lookup ⟨n, .callers⟩ = (vars n).map .arg

/-- The traits the type of a variable implements: none, if there is no variable of this name. -/
def Place.varTypes {Y St : Type} (P : Place Y St) (n : Str) (tr : FormatTrait) : Bool := (P.vars n).any fun v => v.impls tr

/-- The value of a variable, if there is one of this name. -/
def Place.value {Y St : Type} (P : Place Y St) (n : Str) : ArgVal :=
  match P.vars n with
  | some v => v.value
  | none => ⟨fun _ _ => .panic, .panic⟩

/-- A call: the path to the crate, the format string, the arguments as written and as they are to be understood, and
whether there is a comma at the end. -/
structure Call (Y : Type) where
  lead : Bool
  segs : List PathSegment
  format : Str
  written : List (Tok Y × MacroArg (SynExpr Y))
  readsAs : ∀ p ∈ written, ReadsAs p.1 p.2
  trailing : Bool

def Call.args {Y : Type} (C : Call Y) : List (MacroArg (SynExpr Y)) := C.written.map Prod.snd

/-- The call as tokens. -/
def Call.tokens {Y : Type} (C : Call Y) : List (Tok Y) :=
  callTokens C.lead C.segs C.format (C.written.map Prod.fst) C.trailing

/-- The call follows the rules, with `tree` being what is read in the format string. -/
structure Rules {Y St : Type} (E : Env) (P : Place Y St) (C : Call Y) (tree : List PieceSyn) : Prop where
  reads : Reads E C.format tree
  positionalFirst : PositionalFirst C.args
  refsOk : RefsOk C.args tree
  allUsed : AllUsed C.args tree
  traits : TraitsMet (C.args.map (argMeaning P.types)) P.varTypes tree

/-- What ends the output of the macros that end the line (`nl`) and of the others. -/
def lineEnd (nl : Bool) : Styled := if nl then [('\n', Style.default)] else []

end Stylish.Spec
