import Verif.Model.Features
/-
Specification of the Cargo features: what the README promises, and what it means that everything compiles.
-/

namespace Stylish.Cargo

/-- Every name that is compiled can be used where it is mentioned, and everything that is re-exported is there. -/
def NamesResolve (B : Build) : Prop :=
  ∀ c, B (.built c) →
    (∀ k ∈ (source c).code, Holds B c k.cfg → ∀ r ∈ k.refs, Usable B (some c) r) ∧
    (∀ u ∈ (source c).uses, Holds B c u.cfg → ∃ ns, Usable B (some c) ⟨u.crate, u.target, ns⟩)

/-- A definition or a `pub use`. -/
inductive Entry where
  | def (d : Def)
  | use (u : Use)
  deriving DecidableEq

/-- All of a crate's. -/
def entries (c : Crate) : List Entry := (source c).defs.map .def ++ (source c).uses.map .use

/-- The entry makes `path` mean something in the namespace. -/
def Entry.Provides (B : Build) (c : Crate) (path : List Id) (ns : Ns) : Entry → Prop
  | .def d => d.path = path ∧ d.ns = ns ∧ Holds B c d.cfg
  | .use u => u.path = path ∧ Holds B c u.cfg ∧ Usable B (some c) ⟨u.crate, u.target, ns⟩

/-- No name means two things. -/
def NamesUnique (B : Build) : Prop :=
  ∀ c path ns, ∀ e ∈ entries c, ∀ e' ∈ entries c, e.Provides B c path ns → e'.Provides B c path ns → e = e'

/-- The features a user of `stylish` gets who asks for `S`: README.md:141-148, "on-by-default", "implied by `std`". -/
def Chosen (S : Feature → Prop) : Feature → Prop
  | .default => S .default
  | .std => S .std ∨ S .default
  | .alloc => S .alloc ∨ S .std ∨ S .default
  | .macros => S .macros ∨ S .default
  | .ansi => S .ansi
  | .html => S .html
  | .plain => S .plain

/-- The public names of `stylish`, with the features that they take: README.md:141-148. -/
def documented : List (List Id × Ns × List Feature) := [
  ([.Arguments], .type, []), ([.Background], .type, []), ([.Background], .value, []), ([.Color], .type, []),
  ([.Display], .type, []), ([.Error], .type, []), ([.Error], .value, []), ([.Foreground], .type, []),
  ([.Foreground], .value, []), ([.Formatter], .type, []), ([.Intensity], .type, []), ([.Restyle], .type, []),
  ([.Result], .type, []), ([.Style], .type, []), ([.StyleDiff], .type, []), ([.Write], .type, []),
  -- `alloc`: "Enables `String` and a variety of items that use it"; `macros`: "Enables macros throughout the other
  -- enabled modules"
  ([.String], .type, [.alloc]), ([.format], .value, [.alloc]), ([.format], .macro, [.alloc, .macros]),
  ([.ToStylishString], .type, [.alloc, .macros]),
  ([.format_args], .macro, [.macros]), ([.write], .macro, [.macros]), ([.writeln], .macro, [.macros]),
  -- `std`: "Enables the `io` module (and `io` helpers in other modules)"
  ([.io], .type, [.std]), ([.io, .Error], .type, [.std]), ([.io, .ErrorKind], .type, [.std]),
  ([.io, .Result], .type, [.std]), ([.io, .Write], .type, [.std]),
  ([.io, .Ansi], .type, [.std, .ansi]), ([.io, .ansi], .value, [.std, .ansi]),
  ([.io, .Plain], .type, [.std, .plain]), ([.io, .plain], .value, [.std, .plain]),
  -- `ansi`, `html`, `plain`: "Enables the `ansi` module and items that use it"
  ([.ansi], .type, [.ansi]), ([.ansi], .value, [.ansi]), ([.Ansi], .type, [.ansi]),
  ([.ansi, .format], .value, [.ansi, .alloc]), ([.ansi, .format], .macro, [.ansi, .alloc, .macros]),
  ([.ToAnsiString], .type, [.ansi, .alloc, .macros]),
  ([.html], .type, [.html]), ([.html], .value, [.html]), ([.Html], .type, [.html]),
  ([.html, .format], .value, [.html, .alloc]), ([.html, .format], .macro, [.html, .alloc, .macros]),
  ([.ToHtmlString], .type, [.html, .alloc, .macros]),
  ([.plain], .type, [.plain]), ([.plain], .value, [.plain]), ([.Plain], .type, [.plain]),
  ([.plain, .format], .value, [.plain, .alloc]), ([.plain, .format], .macro, [.plain, .alloc, .macros]),
  ([.ToPlainString], .type, [.plain, .alloc, .macros])]

/-- The features that a package is built for: the optional ones are "off by default" (README.md:141-148). -/
def packageNeeds : Crate → List Feature
  | .stylish | .core | .style => []
  | .macros | .styleHost | .withBuiltin => [.macros]
  | .ansi => [.ansi]
  | .html | .askama => [.html]
  | .plain => [.plain]

end Stylish.Cargo
