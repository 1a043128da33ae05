import Verif.Model.Basic
/-
`core::fmt::Write` sinks, external to the repo: the `T` in `Ansi<T>`, `Html<T>`, `Plain<T>`.
-/

namespace Stylish

/-- `core::fmt::Write` (external trait): an arbitrary state machine accepting strings.
(the bound in plain/src/plain.rs:36, ansi/src/ansi.rs:49, html/src/html.rs:53) -/
class FmtWrite (T : Type) where
  writeStr : Str → Act T FmtError Unit

/-- `alloc::string::String` as a `core::fmt::Write` (external): appending never fails.
(used in plain/src/format.rs:38, ansi/src/format.rs:38, html/src/format.rs:38) -/
structure StdString where
  chars : Str
  deriving DecidableEq, Repr

/-- `impl core::fmt::Write for alloc::string::String` (external; used in plain/src/format.rs:38): `write_str` appends. -/
instance : FmtWrite StdString := ⟨fun s t => (.ok (), ⟨t.chars ++ s⟩)⟩

/-- `String::new()`. (used in plain/src/format.rs:38, ansi/src/format.rs:38, html/src/format.rs:38) -/
def StdString.new : StdString := ⟨[]⟩

end Stylish
