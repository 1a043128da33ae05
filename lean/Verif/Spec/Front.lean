import Verif.Model.Front
import Verif.Spec.Call
/-
Specification: what a user writes between the parentheses of `format_args!`, `write!`, `writeln!`, `format!`.
-/

namespace Stylish.Spec

variable {Y : Type}

/-- A token that gives the format string: a string literal, or a builtin macro call (`concat!(..)`) that
expands to one. -/
inductive FormatText (builtins : Builtins Y) : Tok Y → Str → Prop
  | literal (s : Str) : FormatText builtins (.lit s) s
  | builtin (e : SynExpr Y) (s : Str) (h : builtins e = some s) : FormatText builtins (.expr e) s

/-- The argument with its expression replaced by what it means. -/
def argMeaning {X Z : Type} (g : X → Z) : MacroArg X → MacroArg Z
  | .positional e => .positional (g e)
  | .named name e => .named name (g e)

end Stylish.Spec
