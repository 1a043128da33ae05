import Verif.Model.Ansi
import Verif.Model.Html
import Verif.Model.Plain
import Verif.Model.Io
import Verif.Model.StyString
/-
Model of `#[derive(Clone, Default)]` on the writers: field by field.
-/

namespace Stylish

/-- `core::clone::Clone` (external trait), for a type whose clones share nothing with the original.
(derived at ansi/src/ansi.rs:16 and so on) -/
class StdClone (T : Type) where
  clone : T → T

/-- `core::default::Default` (external trait). (derived at ansi/src/ansi.rs:16 and so on) -/
class StdDefault (T : Type) where
  default : T

/-- `alloc::string::String` (external; used in plain/src/format.rs:38). -/
instance : StdClone StdString := ⟨id⟩
/-- `alloc::string::String` (external; used in plain/src/format.rs:38). -/
instance : StdDefault StdString := ⟨StdString.new⟩

/-- style/src/lib.rs:69 `derive(Copy, Clone)` of `Style`. -/
instance : StdClone Style := ⟨fun s => ⟨s.foreground, s.background, s.intensity⟩⟩
/-- style/src/lib.rs:69 `derive(Default)` of `Style`: the defaults of its fields, style/src/lib.rs:147-159. -/
instance : StdDefault Style := ⟨⟨Color.Default, Color.Default, Intensity.Normal⟩⟩

section
variable {T : Type} {fuel : Nat}

/-- ansi/src/ansi.rs:16. -/
instance [StdClone T] : StdClone (Ansi T) := ⟨fun a => ⟨StdClone.clone a.inner, StdClone.clone a.current⟩⟩
/-- ansi/src/ansi.rs:16. -/
instance [StdDefault T] : StdDefault (Ansi T) := ⟨⟨StdDefault.default, StdDefault.default⟩⟩

/-- html/src/html.rs:20. -/
instance [StdClone T] : StdClone (Html T) := ⟨fun a => ⟨StdClone.clone a.inner, StdClone.clone a.current⟩⟩
/-- html/src/html.rs:20. -/
instance [StdDefault T] : StdDefault (Html T) := ⟨⟨StdDefault.default, StdDefault.default⟩⟩

/-- plain/src/plain.rs:12. -/
instance [StdClone T] : StdClone (Plain T) := ⟨fun a => ⟨StdClone.clone a.inner⟩⟩
/-- plain/src/plain.rs:12. -/
instance [StdDefault T] : StdDefault (Plain T) := ⟨⟨StdDefault.default⟩⟩

/-- ansi/src/io.rs:20. -/
instance [StdClone T] : StdClone (IoAnsi fuel T) := ⟨fun a => ⟨StdClone.clone a.inner, StdClone.clone a.current⟩⟩
/-- ansi/src/io.rs:20. -/
instance [StdDefault T] : StdDefault (IoAnsi fuel T) := ⟨⟨StdDefault.default, StdDefault.default⟩⟩

/-- plain/src/io.rs:18. -/
instance [StdClone T] : StdClone (IoPlain fuel T) := ⟨fun a => ⟨StdClone.clone a.inner⟩⟩
/-- plain/src/io.rs:18. -/
instance [StdDefault T] : StdDefault (IoPlain fuel T) := ⟨⟨StdDefault.default⟩⟩

end

/-- core/src/string.rs:42 `derive(Clone)`: both fields. -/
instance : StdClone StyString := ⟨fun s => ⟨s.string, s.styles⟩⟩
/-- core/src/string.rs:42 `derive(Default)`: empty fields. -/
instance : StdDefault StyString := ⟨⟨[], []⟩⟩

end Stylish
