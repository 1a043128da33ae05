import Verif.Lemmas.Ownership
import Verif.Props.Hygiene
/-
Arguments are only borrowed: C78. The specification, which variables an expression of Rust moves, is Spec/Ownership.lean.
-/

namespace Stylish.Props

open Spec Spec.Ownership Rust Format

variable {Y : Type}

/-- C78: a macro call moves neither the values of its arguments nor the variables named in the format string, nor anything
else of the caller's, whatever their types: they can all be used afterwards. The value it makes can be formatted any number
of times: the closures in it do not move what they have captured. -/
theorem C78_only_borrows (E : Env) (toks : List (Tok Y)) (t : RExpr (SynExpr Y))
    (h : Tokens.formatArgsCall E toks = .ok t ∨ Tokens.formatArgsNlCall E toks = .ok t) :
    moves noneCopied false t = [] ∧ WellOwned noneCopied t := by
  rcases h with h | h
  · unfold Tokens.formatArgsCall at h
    rcases hp : parseInput toks with e | ⟨krate, input⟩
    · rw [hp] at h; cases h
    · rw [hp] at h
      cases krate with
      | none => cases h
      | some k =>
        change laterPhase (Tokens.formatArgsImpl E input) = .ok t at h
        rcases hi : Tokens.formatArgsImpl E input with e | t'
        · rw [hi] at h; cases h
        · rw [hi] at h
          obtain rfl := Except.ok.inj h
          exact Tokens.keeps_impl E _ _ _ hi
  · unfold Tokens.formatArgsNlCall at h
    rcases hp : parseInput toks with e | ⟨krate, input⟩
    · rw [hp] at h; cases h
    · rw [hp] at h
      cases krate with
      | none => cases h
      | some k =>
        change laterPhase (Tokens.formatArgsImpl E { input with format := input.format ++ str "\n" }) = .ok t at h
        rcases hi : Tokens.formatArgsImpl E { input with format := input.format ++ str "\n" } with e | t'
        · rw [hi] at h; cases h
        · rw [hi] at h
          obtain rfl := Except.ok.inj h
          exact Tokens.keeps_impl E _ _ _ hi

/-! ## Examples -/

/-- The hypothesis is met by `format_args!("{x:(bold)}{a}{}", one, a = two)`. -/
example : ∃ t, Tokens.formatArgsCall Spec.Syntax.asciiEnv hygieneCall = .ok t := by
  have h : (Tokens.formatArgsCall Spec.Syntax.asciiEnv hygieneCall).isOk = true := by decide +kernel
  rcases e : Tokens.formatArgsCall Spec.Syntax.asciiEnv hygieneCall with _ | t
  · rw [e] at h; cases h
  · exact ⟨t, rfl⟩

/-- A caller's variable `x` and one of the macro's, for the examples. -/
def exX : Ident := ⟨str "x", .callers⟩
def exY : Ident := ⟨str "y", .ours⟩

/-- What the specification says of other code: `(&x,)` moves nothing, `(x,)` moves `x`. -/
example : moves (Y := Nat) noneCopied false (.tuple [.ref (.ident exX)]) = [] ∧
    moves (Y := Nat) noneCopied false (.tuple [.ident exX]) = [.var exX] := by
  constructor <;> rfl

/-- `match &x { y => move |f| f(y) }` moves nothing and can be called again. -/
example : (fun e => moves (Y := Nat) noneCopied false e = [] ∧ WellOwned noneCopied e)
    (.matchIdent (.ref (.ident exX)) exY (.closure ⟨str "f", .ours⟩ [] (.call (.ident ⟨str "g", .ours⟩) [.ident exY]))) := by
  refine ⟨by decide +kernel, ?_⟩
  have hne : exY ≠ ⟨str "f", .ours⟩ := by decide +kernel
  simp [WellOwned, WellOwnedAll, Apart, moves, movesAll, without, Kinds.bind, kindOf, Kind.stays, hne]

/-- `match x { y => move |f| f(y) }` moves `x`, and the closure can only be called once. -/
example : (fun e => (∃ t, moves (Y := Nat) noneCopied false e = [t]) ∧ ¬ WellOwned noneCopied e)
    (.matchIdent (.ident exX) exY (.closure ⟨str "f", .ours⟩ [] (.call (.ident ⟨str "g", .ours⟩) [.ident exY]))) := by
  refine ⟨⟨.var exX, by rfl⟩, ?_⟩
  have hne : exY ≠ ⟨str "f", .ours⟩ := by decide +kernel
  simp [WellOwned, WellOwnedAll, moves, movesAll, without, Kinds.bind, kindOf, Kind.stays, noneCopied, hne]

/-- `(x, &x)` uses `x` after it was moved. -/
example : ¬ WellOwned (Y := Nat) noneCopied (.tuple [.ident exX, .ref (.ident exX)]) := by
  intro h
  exact h.2.2 (.var exX) (by simp [moves, noneCopied, Kind.stays]) (by simp [mentions, mentionsAll])

end Stylish.Props
