import Verif.Spec.Text
import Verif.Model.Io
/-
Specification vocabulary: a program that goes on using a writer after a call on it failed or panicked.
-/

namespace Stylish.Spec

/-- What a call `w.write_fmt(args)` writes, and how it ends, if no write fails. -/
def textOf (args : Arguments) : List Chunk := (writes args.f Style.default FormatterArgs.default).1
def endOf (args : Arguments) : Res FmtError Unit := (writes args.f Style.default FormatterArgs.default).2

/-- A program that makes some calls of `write!` on a writer one after the other and carries on whatever comes of
each: an error is ignored, a panic is caught (`catch_unwind`). The results, and the writer at the end. -/
def carryOn {W : Type} [Write W] : List Arguments → W → List (Res FmtError Unit) × W
  | [], w => ([], w)
  | x :: xs, w =>
    let first := Write.writeFmt x w
    let others := carryOn xs first.2
    (first.1 :: others.1, others.2)

/-- The same on a `stylish::io::Write`. -/
def carryOnIo {W : Type} [IoWrite W] : List Arguments → W → List (Res IoError Unit) × W
  | [], w => ([], w)
  | x :: xs, w =>
    let first := IoWrite.writeFmt x w
    let others := carryOnIo xs first.2
    (first.1 :: others.1, others.2)

/-- What a caller of `io::Write::write_fmt` is told of a formatting implementation that failed by itself. -/
def toldIo : Res FmtError Unit → Res IoError Unit
  | .ok () => .ok ()
  | .err () => .err ⟨.Other, "formatter error"⟩
  | .panic => .panic
  | .diverge => .diverge

end Stylish.Spec
