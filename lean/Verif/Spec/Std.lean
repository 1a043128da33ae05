import Verif.Model.StdWrite
import Verif.Spec.Text
/-
Specification vocabulary: std formatting programs.
-/

namespace Stylish.Spec

/-- What a std formatting program writes, and how it ends, when every write succeeds. -/
def stdWrites : StdProg → List Str × Res FmtError Unit
  | .done r => ([], ended r)
  | .panic => ([], .panic)
  | .write s k => (s :: (stdWrites (k .ok)).1, (stdWrites (k .ok)).2)

/-- A std formatting program run on a writer of plain strings. -/
def stdRun {W : Type} (put : Str → Act W FmtError Unit) : StdProg → Act W FmtError Unit
  | .done r => fun w => (ended r, w)
  | .panic => fun w => (.panic, w)
  | .write s k => fun w =>
    match put s w with
    | (.ok (), w') => stdRun put (k .ok) w'
    | (.err (), w') => stdRun put (k .err) w'
    | (.panic, w') => (.panic, w')
    | (.diverge, w') => (.diverge, w')

/-- The options the std formatting program of an argument sees: those of the stylish formatter. -/
def stdView (kind : StdKind) (a : FormatterArgs) : StdOpts :=
  { fill := ' ', align := a.align, sign := a.sign, alternate := a.alternate, zero := a.zero,
    width := a.width, precision := a.precision,
    debugHex := match kind with | .Other => none | .Debug => a.debugHex
    debug := match kind with | .Other => false | .Debug => true }

end Stylish.Spec
