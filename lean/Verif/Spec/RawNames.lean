import Verif.Spec.Call
import Verif.Spec.Grammar
/-
Specification vocabulary: the names of arguments as they are written at a call, raw identifiers included.
-/

namespace Stylish.Spec

/-- The keywords of Rust (edition 2021), strict and reserved. -/
def keywords : List Str :=
  ["as", "break", "const", "continue", "crate", "else", "enum", "extern", "false", "fn", "for", "if", "impl", "in",
   "let", "loop", "match", "mod", "move", "mut", "pub", "ref", "return", "self", "Self", "static", "struct", "super",
   "trait", "true", "type", "unsafe", "use", "where", "while", "async", "await", "dyn", "abstract", "become", "box",
   "do", "final", "macro", "override", "priv", "typeof", "unsized", "virtual", "yield", "try"].map str

/-- An argument name as written: an identifier, or a raw one (`r#type`). -/
structure NameTok where
  raw : Bool
  name : Str
  deriving DecidableEq

namespace NameTok

/-- `Ident::to_string` (proc_macro): a raw identifier keeps its `r#`. -/
def toStr (n : NameTok) : Str := if n.raw then str "r#" ++ n.name else n.name

/-- What Rust lets one write: an identifier; a keyword only as a raw one, five names not even so. -/
def Written (E : Env) (n : NameTok) : Prop :=
  Syntax.Ident E n.name ∧
  (n.raw = false → n.name ∉ keywords ∧ n.name ≠ str "_") ∧
  (n.raw = true → n.name ∉ [str "_", str "super", str "self", str "Self", str "crate"])

/-- The argument `name = value`. -/
def arg {Y : Type} (n : NameTok) (value : SynExpr Y) : Tok Y :=
  .expr (.assign (.path false false [⟨n.toStr, true⟩]) value)

/-- The format string `{name}`: in a format string there are no raw identifiers. -/
def placeholder (n : NameTok) : Str := str "{" ++ n.name ++ str "}"

end NameTok

end Stylish.Spec
