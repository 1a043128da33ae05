import Verif.Model.MacroInput
/-
Specification: what a macro call looks like in tokens.
-/

namespace Stylish.Spec

variable {Y : Type}

/-- What an argument means. `name = expr` is the named argument `name`: the left side is a path of one
segment without generic arguments. Every other expression is a positional argument. -/
inductive ReadsAs : Tok Y → MacroArg (SynExpr Y) → Prop
  | named (q l : Bool) (name : Str) (value : SynExpr Y) :
      ReadsAs (.expr (.assign (.path q l [⟨name, true⟩]) value)) (.named name value)
  | literal (s : Str) : ReadsAs (.lit s) (.positional (.lit s))
  | positional (e : SynExpr Y)
      (h : ∀ q l name value, e ≠ .assign (.path q l [⟨name, true⟩]) value) :
      ReadsAs (.expr e) (.positional e)

/-- The tokens of the arguments: each after a comma, and perhaps one more comma. -/
def argTokens (args : List (Tok Y)) (trailing : Bool) : List (Tok Y) :=
  args.flatMap (fun a => [.comma, a]) ++ if trailing then [.comma] else []

/-- `crate = path, "format", args..` -/
def callTokens (lead : Bool) (segs : List PathSegment) (format : Str) (args : List (Tok Y))
    (trailing : Bool) : List (Tok Y) :=
  [.crate, .eq, .expr (.path false lead segs), .comma, .lit format] ++ argTokens args trailing

end Stylish.Spec
