import Verif.Spec.CarryOn
import Verif.Model.Derives
/-
Specification vocabulary: a writer and its clones. Whoever follows one of them back to where the first was made finds
writes, and points at which it was cloned and the clone taken.
-/

namespace Stylish.Spec

/-- One step in the history of a writer. -/
inductive CloneStep (A : Type) where
  | write (x : A)
  | clone

/-- What was written on the way. -/
def CloneStep.written {A : Type} : List (CloneStep A) → List A
  | [] => []
  | .write x :: rest => x :: written rest
  | .clone :: rest => written rest

/-- Follow the history, as long as the writes succeed; `w` is how something is written. -/
def CloneStep.follow {W E A : Type} [StdClone W] (w : A → Act W E Unit) : List (CloneStep A) → Act W E Unit
  | [], s => (.ok (), s)
  | .write x :: rest, s =>
    match w x s with
    | (.ok (), s') => follow w rest s'
    | r => r
  | .clone :: rest, s => follow w rest (StdClone.clone s)

/-- Writing one text in one style, on a `stylish::Write`. -/
def writeChunk {W : Type} [Write W] (ch : Chunk) : Act W FmtError Unit := Write.writeStr ch.1 ch.2

end Stylish.Spec
