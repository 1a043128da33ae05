import Verif.Model.Expand
import Verif.Model.Io
/-
Specification vocabulary: a document written in several calls.
-/

namespace Stylish.Spec

/-- `write!(w, ..)?; write!(w, ..)?; ..` -/
def inTurn {W : Type} [Write W] : List Arguments → Act W FmtError Unit
  | [] => pure ()
  | x :: xs => do
    Write.writeFmt x
    inTurn xs

/-- The same on a `stylish::io::Write`. -/
def inTurnIo {W : Type} [IoWrite W] : List Arguments → Act W IoError Unit
  | [] => pure ()
  | x :: xs => do
    IoWrite.writeFmt x
    inTurnIo xs

/-- `"{:s}{:s}.."`, with one placeholder for each of the calls. -/
def allShown (calls : List Arguments) : Str := calls.flatMap fun _ => str "{:s}"

/-- The calls' `format_args!(..)` as the arguments for it. -/
def asArgs (calls : List Arguments) : List (MacroArg ArgVal) :=
  calls.map fun x => .positional ⟨fun _ _ => .done .ok, Display.fmt x⟩

end Stylish.Spec
