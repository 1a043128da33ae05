import Verif.Model.Rust
/-
Specification: what is expected of the place a macro is called at. The evaluator of the generated code
(Model/Rust.lean) is the semantics of the target language; here is only what the caller may have in scope.
-/

namespace Stylish.Spec

open Rust Format

/-- A local variable of this name may be introduced: no constant, static, unit or tuple struct or variant of this name
is in scope. -/
def Free (sc : Scope) (name : Str) : Prop :=
  match sc.items name with
  | none => True
  | some (.function _) => True
  | _ => False

/-- The names the generated code binds. -/
def reserved : List Str :=
  ["__stylish_positional_args", "__stylish_named_args", "__stylish_implicit_named_args", "__stylish_formatter",
   "__stylish_arg", "diff"].map str

/-- A place to call a macro at: all local variables are the caller's, and none of the names the generated code binds
is the name of a constant, etc. -/
def CallSite (sc : Scope) : Prop :=
  (∀ b ∈ sc.locals, b.1.site = .callers) ∧ ∀ name ∈ reserved, Free sc name

/-- `Some` is the `Some` of the prelude. -/
def PreludeSome (sc : Scope) : Prop := sc.items (str "Some") = some (.constructor fnSome)

/-- The trait `Default` of the prelude is in scope. -/
def PreludeDefault (sc : Scope) : Prop := sc.defaultTrait = true

/-- What the caller's expressions do in this place: `m` of an expression is its value and what it does to the state,
`types` the formatting traits its type implements. -/
def ExprsMean {Y St : Type} (u : UserExprs Y St) (sc : Scope) (m : Y → Expr St) (types : Y → FormatTrait → Bool) : Prop :=
  ∀ e st, u sc.locals e st = some (.arg ⟨(m e st).1, types e⟩, (m e st).2)

/-- The type of each argument and captured variable implements the traits of the placeholders it is used in. -/
def Implements {Y : Type} (x : Expansion Y) (types : Y → FormatTrait → Bool) (vars : Str → TypedVal) : Prop :=
  ∀ slot tr a d, Stmt.arg slot tr a d ∈ x.statements →
    match slot with
    | .positional i => ∀ e, x.positional[i]? = some e → types e tr = true
    | .named i => ∀ e, x.named[i]? = some e → types e tr = true
    | .implicit i => ∀ n, x.implicit[i]? = some n → (vars n).impls tr = true

end Stylish.Spec
