import Verif.Model.Rust
/-
Specification: which variables an expression moves, after the Rust reference (place and value expression contexts, moved
and copied types, closure types). Written for the fragment of Model/Rust.lean, independent of the macros.

Simplifications: lifetimes are not considered; of the types only is considered whether they are copied, and the types of the
caller's expressions and variables are never copied (the worst case); a parameter `&mut T` of a closure is reborrowed
wherever it is used.
-/

namespace Stylish.Spec.Ownership

open Rust

variable {Y : Type}

/-- What happens to a value of a type when it is used. -/
inductive Kind where
  /-- copied: shared references, numbers, .. -/
  | copied
  /-- a mutable reference that is reborrowed -/
  | reborrowed
  /-- moved -/
  | moved
  /-- a tuple of such -/
  | tuple (parts : List Kind)

/-- It stays usable. -/
def Kind.stays : Kind → Bool
  | .copied => true
  | .reborrowed => true
  | _ => false

/-- A part of a tuple. (If there is no such part, the code does not compile.) -/
def Kind.part : Kind → Nat → Kind
  | .tuple parts, i => parts.getD i .copied
  | _, _ => .moved

/-- The kinds of the variables. -/
abbrev Kinds := Ident → Kind

def Kinds.bind (Γ : Kinds) (x : Ident) (k : Kind) : Kinds := fun i => if i = x then k else Γ i

/-- Bind the parts of a tuple. -/
def Kinds.bindAll (Γ : Kinds) (k : Kind) : Nat → List Ident → Kinds
  | _, [] => Γ
  | n, x :: xs => Kinds.bindAll (Γ.bind x (k.part n)) k (n + 1) xs

mutual
/-- The kind of an expression. -/
def kindOf (Γ : Kinds) : RExpr Y → Kind
  | .ident i => Γ i
  | .lit _ => .copied
  | .num _ => .copied
  | .bool _ => .copied
  | .ref _ => .copied
  | .tuple es => .tuple (kindsOf Γ es)
  | .field e i => (kindOf Γ e).part i
  | _ => .moved
def kindsOf (Γ : Kinds) : List (RExpr Y) → List Kind
  | [] => []
  | e :: es => kindOf Γ e :: kindsOf Γ es
end

/-- A variable, or an expression of the caller. -/
inductive Thing (Y : Type) where
  | var (i : Ident)
  | expr (e : Y)

/-- Without the variables bound here. -/
def without (xs : List Ident) (ts : List (Thing Y)) : List (Thing Y) :=
  ts.filter fun t => match t with
    | .var i => !xs.contains i
    | .expr _ => true

mutual
/-- The variables and the caller's expressions an expression mentions, other than by the name of a function. -/
def mentions : RExpr Y → List (Thing Y)
  | .ident i => [.var i]
  | .user e => [.expr e]
  | .ref e => mentions e
  | .refMut e => mentions e
  | .tuple es => mentionsAll es
  | .field e _ => mentions e
  | .call (.ident _) args => mentionsAll args
  | .call f args => mentions f ++ mentionsAll args
  | .struct _ _ values => mentionsAll values
  | .letMut x e rest => mentions e ++ without [x] (mentions rest)
  | .setField x _ e rest => mentions e ++ .var x :: mentions rest
  | .matchIdent e x rest => mentions e ++ without [x] (mentions rest)
  | .matchTuple e xs rest => mentions e ++ without xs (mentions rest)
  | .closure x _ body => without [x] (mentions body)
  | .tryThen e rest => mentions e ++ mentions rest
  | _ => []
def mentionsAll : List (RExpr Y) → List (Thing Y)
  | [] => []
  | e :: es => mentions e ++ mentionsAll es
end

/-- Those that are moved when they are used. -/
def movedOf (Γ : Kinds) (ts : List (Thing Y)) : List (Thing Y) :=
  ts.filter fun t => match t with
    | .var i => !(Γ i).stays
    | .expr _ => true

mutual
/-- The variables and the caller's expressions that are moved by an expression: those used as values, and those captured
by a `move` closure. With `place` the expression is one to which a reference is made, or of which a part is used. -/
def moves (Γ : Kinds) (place : Bool) : RExpr Y → List (Thing Y)
  | .ident i => if place || (Γ i).stays then [] else [.var i]
  | .user e => if place then [] else [.expr e]
  | .ref e => moves Γ true e
  | .refMut e => moves Γ true e
  | .tuple es => movesAll Γ es
  | .field e i => moves Γ (place || ((kindOf Γ e).part i).stays) e
  | .call (.ident _) args => movesAll Γ args
  | .call f args => moves Γ false f ++ movesAll Γ args
  | .struct _ _ values => movesAll Γ values
  | .letMut x e rest => moves Γ false e ++ without [x] (moves (Γ.bind x (kindOf Γ e)) false rest)
  | .setField _ _ e rest => moves Γ false e ++ moves Γ false rest
  | .matchIdent e x rest => moves Γ false e ++ without [x] (moves (Γ.bind x (kindOf Γ e)) false rest)
  | .matchTuple e xs rest => moves Γ false e ++ without xs (moves (Γ.bindAll (kindOf Γ e) 0 xs) false rest)
  | .closure x _ body => movedOf Γ (without [x] (mentions body))
  | .tryThen e rest => moves Γ false e ++ moves Γ false rest
  | _ => []
def movesAll (Γ : Kinds) : List (RExpr Y) → List (Thing Y)
  | [] => []
  | e :: es => moves Γ false e ++ movesAll Γ es
end

/-- What is moved first is not mentioned later. -/
def Apart (first later : List (Thing Y)) : Prop := ∀ t ∈ first, t ∉ later

mutual
/-- Nothing is used after it was moved, and every closure can be called any number of times: its body moves none of the
variables it has captured. -/
def WellOwned (Γ : Kinds) : RExpr Y → Prop
  | .ref e => WellOwned Γ e
  | .refMut e => WellOwned Γ e
  | .tuple es => WellOwnedAll Γ es
  | .field e _ => WellOwned Γ e
  | .call (.ident _) args => WellOwnedAll Γ args
  | .call f args => WellOwned Γ f ∧ WellOwnedAll Γ args
  | .struct _ _ values => WellOwnedAll Γ values
  | .letMut x e rest =>
    WellOwned Γ e ∧ WellOwned (Γ.bind x (kindOf Γ e)) rest ∧ Apart (moves Γ false e) (without [x] (mentions rest))
  | .setField x _ e rest => WellOwned Γ e ∧ WellOwned Γ rest ∧ Apart (moves Γ false e) (.var x :: mentions rest)
  | .matchIdent e x rest =>
    WellOwned Γ e ∧ WellOwned (Γ.bind x (kindOf Γ e)) rest ∧ Apart (moves Γ false e) (without [x] (mentions rest))
  | .matchTuple e xs rest =>
    WellOwned Γ e ∧ WellOwned (Γ.bindAll (kindOf Γ e) 0 xs) rest ∧ Apart (moves Γ false e) (without xs (mentions rest))
  | .closure x _ body =>
    WellOwned (Γ.bind x .reborrowed) body ∧ without [x] (moves (Γ.bind x .reborrowed) false body) = []
  | .tryThen e rest => WellOwned Γ e ∧ WellOwned Γ rest ∧ Apart (moves Γ false e) (mentions rest)
  | _ => True
def WellOwnedAll (Γ : Kinds) : List (RExpr Y) → Prop
  | [] => True
  | e :: es => WellOwned Γ e ∧ WellOwnedAll Γ es ∧ Apart (moves Γ false e) (mentionsAll es)
end

/-- Nothing is known of the variables: they are moved when used. -/
def noneCopied : Kinds := fun _ => .moved

end Stylish.Spec.Ownership
