import Verif.Model.Rust
/-
Specification: how long what a value refers to stays alive, after the Rust reference (destructors: temporary scopes,
temporary lifetime extension, constant promotion; closure types: capture modes and capture precision). Written for the
fragment of Model/Rust.lean, independent of the macros.

Simplifications: types are not considered; so the value of a call may refer to whatever its arguments refer to, and only
literals and the caller's constant expressions are promoted. The arms of a `match` are not extending (they are since
Rust 1.79, which makes no difference to a closure).
-/

namespace Stylish.Spec.Lifetime

open Rust

variable {Y : Type}

/-- How long something lives, seen from the place of an expression of the caller. -/
inductive Life where
  /-- for the rest of the program -/
  | always
  /-- as the variables declared in the same block: at least to the end of the block -/
  | block
  /-- to the end of the statement -/
  | statement
  /-- not beyond the expression itself -/
  | inner
  deriving DecidableEq

/-- What an expression of the caller is, where a reference to it is made. -/
inductive Source where
  /-- a variable, a field of one, and so on -/
  | place
  /-- a constant expression like `1`, that is promoted -/
  | constant
  /-- any other value: it is put into a temporary -/
  | temporary
  deriving DecidableEq

/-- The caller's expressions: what they are, and whether their value refers to a temporary in the expression, as with
`&f()` and `f().as_str()`. -/
structure Exprs (Y : Type) where
  source : Y → Source
  borrows : Y → Bool

/-- The expression is no temporary, and does not refer to one. -/
def Exprs.Lasting (s : Exprs Y) (e : Y) : Prop := s.source e ≠ .temporary ∧ s.borrows e = false

/-- What a value refers to. -/
inductive Held where
  | one (lives : List Life)
  /-- a tuple -/
  | tuple (parts : List Held)

mutual
def Held.all : Held → List Life
  | .one lives => lives
  | .tuple parts => Held.allOf parts
def Held.allOf : List Held → List Life
  | [] => []
  | h :: hs => h.all ++ Held.allOf hs
end

/-- What a part of a tuple refers to. -/
def Held.part : Held → Nat → Held
  | .one lives, _ => .one lives
  | .tuple parts, i => parts.getD i (.one [])

/-- A variable: how long it lives, and what its value refers to. -/
structure Var where
  life : Life
  holds : Held

abbrev Vars := Ident → Var

def Vars.bind (Γ : Vars) (x : Ident) (v : Var) : Vars := fun i => if i = x then v else Γ i

/-- Bind the parts of a tuple. -/
def Vars.bindAll (Γ : Vars) (h : Held) : Nat → List Ident → Vars
  | _, [] => Γ
  | n, x :: xs => Vars.bindAll (Γ.bind x ⟨.inner, h.part n⟩) h (n + 1) xs

/-- How long that lives to which a reference is made: places live as long as the variable, constants always, and other
values are put into a temporary, which lives for `temp`. -/
def home (s : Exprs Y) (temp : Life) (Γ : Vars) : RExpr Y → Life
  | .ident i => (Γ i).life
  | .field e _ => home s temp Γ e
  | .lit _ => .always
  | .num _ => .always
  | .bool _ => .always
  | .user e =>
    match s.source e with
    | .place => .block
    | .constant => .always
    | .temporary => temp
  | _ => temp

mutual
/-- The variables, or parts of them, that a closure with this body captures. -/
def captures : RExpr Y → List (Ident × Option Nat)
  | .ident i => [(i, none)]
  | .ref e => captures e
  | .refMut e => captures e
  | .tuple es => capturesAll es
  | .field (.ident i) n => [(i, some n)]
  | .field e _ => captures e
  | .call (.ident _) args => capturesAll args
  | .call f args => captures f ++ capturesAll args
  | .struct _ _ values => capturesAll values
  | .letMut x e rest => captures e ++ (captures rest).filter fun p => p.1 ≠ x
  | .setField x _ e rest => captures e ++ (x, none) :: captures rest
  | .matchIdent e x rest => captures e ++ (captures rest).filter fun p => p.1 ≠ x
  | .matchTuple e xs rest => captures e ++ (captures rest).filter fun p => p.1 ∉ xs
  | .closure x _ body => (captures body).filter fun p => p.1 ≠ x
  | .tryThen e rest => captures e ++ captures rest
  | _ => []
def capturesAll : List (RExpr Y) → List (Ident × Option Nat)
  | [] => []
  | e :: es => captures e ++ capturesAll es
end

/-- What a captured variable, or part of one, refers to. -/
def Vars.holds (Γ : Vars) : Ident × Option Nat → Held
  | (i, none) => (Γ i).holds
  | (i, some n) => (Γ i).holds.part n

mutual
/-- What the value of an expression refers to. A temporary lives for `plain`; but for `ext` if it is the operand of a `&`
in an extending position: the initializer of a `let`, and from there through `&`, tuples and braced structs. -/
def held (s : Exprs Y) (ext plain : Life) (Γ : Vars) : RExpr Y → Held
  | .ident i => (Γ i).holds
  | .lit _ => .one [.always]
  | .user e => .one [if s.borrows e then plain else .block]
  | .ref e => .one (home s ext Γ e :: (held s ext plain Γ e).all)
  | .refMut e => .one (home s ext Γ e :: (held s ext plain Γ e).all)
  | .tuple es => .tuple (heldAll s ext plain Γ es)
  | .field e i => (held s ext plain Γ e).part i
  | .call f args => .one ((held s plain plain Γ f).all ++ Held.allOf (heldAll s plain plain Γ args))
  | .struct _ _ values => .one (Held.allOf (heldAll s ext plain Γ values))
  | .letMut x e rest => held s plain plain (Γ.bind x ⟨.inner, held s .inner .inner Γ e⟩) rest
  | .setField x _ e rest =>
    held s plain plain (Γ.bind x ⟨(Γ x).life, .one ((Γ x).holds.all ++ (held s .inner .inner Γ e).all)⟩) rest
  | .matchIdent e x rest => held s plain plain (Γ.bind x ⟨.inner, held s plain plain Γ e⟩) rest
  | .matchTuple e xs rest => held s plain plain (Γ.bindAll (held s plain plain Γ e) 0 xs) rest
  | .closure x _ body => .one (((captures body).filter fun p => p.1 ≠ x).flatMap fun p => (Γ.holds p).all)
  | .tryThen _ rest => held s plain plain Γ rest
  | _ => .one []
def heldAll (s : Exprs Y) (ext plain : Life) (Γ : Vars) : List (RExpr Y) → List Held
  | [] => []
  | e :: es => held s ext plain Γ e :: heldAll s ext plain Γ es
end

/-- The caller's variables: they and what they refer to live on in the block. -/
def callersVars : Vars := fun _ => ⟨.block, .one [.block]⟩

/-- In `let x = e;`, the variable can be used in the statements after. -/
def CanBeKept (s : Exprs Y) (e : RExpr Y) : Prop :=
  ∀ l ∈ (held s .block .statement callersVars e).all, l = .always ∨ l = .block

/-- In any statement, as in `f(e);`, the value of `e` can be used until the end of the statement. -/
def CanBePassed (s : Exprs Y) (e : RExpr Y) : Prop :=
  ∀ l ∈ (held s .statement .statement callersVars e).all, l ≠ .inner

end Stylish.Spec.Lifetime
