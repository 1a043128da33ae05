import Verif.Model.Formatter
import Verif.Model.Sink
/-
Model of /repo/plain/src/plain.rs.
-/

namespace Stylish

/-- plain/src/plain.rs:13-15 `struct Plain<T>`. -/
structure Plain (T : Type) where
  inner : T
  deriving DecidableEq, Repr

variable {T : Type}

/-- Run an action on `self.inner`. (plain/src/plain.rs:38) -/
def Plain.onInner {E A : Type} (x : Act T E A) : Act (Plain T) E A :=
  fun s => let (r, t) := x s.inner; (r, { s with inner := t })

/-- plain/src/plain.rs:19-21 `Plain::new`. -/
def Plain.new (inner : T) : Plain T := ⟨inner⟩

/-- plain/src/plain.rs:31-33 `Plain::into_inner`. -/
def Plain.intoInner (self : Plain T) : T := self.inner

/-- plain/src/plain.rs:36-40 `impl Write for Plain`. -/
instance [FmtWrite T] : Write (Plain T) :=
  ⟨fun s _style => Plain.onInner (FmtWrite.writeStr s)⟩

/-- plain/src/plain.rs:26-28 inherent `Plain::write_fmt`. -/
def Plain.writeFmt [FmtWrite T] (args : Arguments) : Act (Plain T) FmtError Unit :=
  Write.writeFmt args

end Stylish
