import Verif.Model.Io
import Verif.Model.Plain
import Verif.Model.Html
import Verif.Model.StyString
/-
Model of the writer traits with all their methods, provided ones included, and of the implementations for
`&mut W`: /repo/core/src/write.rs:68-107 and /repo/core/src/io.rs:218-270.
-/

namespace Stylish

/-- `&mut W` used as a writer in its own right: the place it borrows is the state.
(core/src/write.rs:95, core/src/io.rs:254) -/
structure MutRef (W : Type) where
  place : W
  deriving DecidableEq, Repr

/-- Act on the place behind the reference: `(**self)`. (core/src/write.rs:97, 101, 105) -/
def MutRef.deref {W E A : Type} (x : Act W E A) : Act (MutRef W) E A :=
  fun self => let (r, w) := x self.place; (r, ⟨w⟩)

/-- core/src/write.rs:95-98 `impl Write for &mut W`, the required method. -/
instance {W : Type} [Write W] : Write (MutRef W) :=
  ⟨fun s style => MutRef.deref (Write.writeStr s style)⟩

/-- core/src/write.rs:90-92 the body of the provided `write_fmt`, literally: `Formatter::new(&mut self)`
where `self` is itself a `&mut Self`, so the formatter's writer is the reference. -/
def Write.writeFmtByRef {W : Type} [Write W] (args : Arguments) : Act W FmtError Unit := fun self =>
  let (r, f) := Formatter.writeFmt args (Formatter.new (MutRef.mk self))
  (r, f.write.place)

/-- core/src/write.rs:12-93 `trait Write` with all its methods, as a caller (or a `dyn Write`) sees them:
the provided ones can be overridden. -/
class WriteTrait (W : Type) extends Write W where
  writeChar : Char → Style → Act W FmtError Unit := fun c style => Write.writeChar c style
  writeFmt : Arguments → Act W FmtError Unit := fun args => Write.writeFmtByRef args

/-- plain/src/plain.rs:36-40: only the required method is given. -/
instance {T : Type} [FmtWrite T] : WriteTrait (Plain T) where

/-- ansi/src/ansi.rs:49-82: only the required method is given. -/
instance {T : Type} [FmtWrite T] : WriteTrait (Ansi T) where

/-- html/src/html.rs:53-90: only the required method is given. -/
instance {T : Type} [FmtWrite T] : WriteTrait (Html T) where

/-- core/src/string.rs:60-69: only the required method is given. -/
instance : WriteTrait StyString where

/-- core/src/io.rs:25-35: only the required method is given. -/
instance {W : Type} [IoWrite W] : WriteTrait (ErrorTrap W) where

/-- core/src/formatter.rs:176-186 `impl Write for Formatter`: overrides `write_fmt` with the formatter's
own. -/
instance {W : Type} [Write W] : WriteTrait (Formatter W) where
  writeFmt := Formatter.writeFmt

/-- core/src/write.rs:95-107 `impl Write for &mut W`: forwards all three methods (`write_str` in the instance above). -/
instance {W : Type} [WriteTrait W] : WriteTrait (MutRef W) where
  writeChar c style := MutRef.deref (WriteTrait.writeChar c style)
  writeFmt args := MutRef.deref (WriteTrait.writeFmt args)

/-- core/src/io.rs:254-266 `impl io::Write for &mut W`: `write`, `flush`, `write_all`. -/
instance {W : Type} [IoWrite W] : IoWrite (MutRef W) where
  write s style := MutRef.deref (IoWrite.write s style)
  flush := MutRef.deref IoWrite.flush
  writeAll s style := MutRef.deref (IoWrite.writeAll s style)

/-- core/src/io.rs:218-222 the body of the provided `io::Write::write_fmt`, literally:
`ErrorTrap::new(self)` where `self` is a `&mut Self`, then `crate::Write::write_fmt(&mut trap, args)`. -/
def IoWrite.writeFmtByRef {W : Type} [IoWrite W] (args : Arguments) : Act W IoError Unit := fun self =>
  match WriteTrait.writeFmt args (ErrorTrap.new (MutRef.mk self)) with
  | (.ok (), trap) => (.ok (), trap.inner.place)
  | (.err (), trap) => (.err trap.takeError, trap.inner.place)
  | (.panic, trap) => (.panic, trap.inner.place)
  | (.diverge, trap) => (.diverge, trap.inner.place)

/-- core/src/io.rs:69-252 `trait io::Write` with all its methods. -/
class IoWriteTrait (W : Type) extends IoWrite W where
  writeFmt : Arguments → Act W IoError Unit := fun args => IoWrite.writeFmtByRef args

/-- plain/src/io.rs:42-54: `write_fmt` is not overridden. -/
instance {fuel : Nat} {T : Type} [StdIoWrite T] : IoWriteTrait (IoPlain fuel T) where

/-- ansi/src/io.rs:55-85: `write_fmt` is not overridden. -/
instance {fuel : Nat} {T : Type} [StdIoWrite T] : IoWriteTrait (IoAnsi fuel T) where

/-- core/src/io.rs:254-270 `impl io::Write for &mut W`: forwards all four methods. -/
instance {W : Type} [IoWriteTrait W] : IoWriteTrait (MutRef W) where
  writeFmt args := MutRef.deref (IoWriteTrait.writeFmt args)

/-- core/src/io.rs:245-251 `by_ref`: borrow. -/
def IoWrite.byRef {W : Type} (self : W) : MutRef W := ⟨self⟩

end Stylish
