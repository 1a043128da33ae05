import Verif.Spec.Changes
import Verif.Model.Sink
import Verif.Spec.CarryOn
/-
Specification vocabulary: the calls a stream gets.
-/

namespace Stylish.Spec

/-- A stream that keeps a record of the calls made on it; how they end is up to the stream inside. -/
structure Recorder (T : Type) where
  inner : T
  calls : List Str

instance {T : Type} [FmtWrite T] : FmtWrite (Recorder T) :=
  ⟨fun s r => ((FmtWrite.writeStr s r.inner).1, ⟨(FmtWrite.writeStr s r.inner).2, r.calls ++ [s]⟩)⟩

/-- A call that is made for a piece of text, or for markup. -/
inductive Said where
  | text (s : Str)
  | markup (s : Str)
  deriving DecidableEq, Repr

/-- What is passed in the call. -/
def Said.arg : Said → Str
  | .text s => s
  | .markup s => s

/-- The calls made for text. -/
def texts (l : List Said) : List Str := l.filterMap fun
  | .text s => some s
  | .markup _ => none

/-- The calls made for markup. -/
def markups (l : List Said) : List Str := l.filterMap fun
  | .text _ => none
  | .markup s => some s

/-- The pieces of text that are not empty. -/
def pieces (chs : List Chunk) : List Str := (chs.map Prod.fst).filter (· ≠ [])

/-- A text cut before and after every character that HTML has to escape; those replaced by a reference to them. -/
def cutAtSpecials : Str → List Str
  | [] => [[]]
  | c :: rest =>
    match [('<', "&lt;"), ('>', "&gt;"), ('&', "&amp;"), ('"', "&quot;"), ('\'', "&#x27;")].lookup c with
    | some reference => [] :: reference.toList :: cutAtSpecials rest
    | none =>
      match cutAtSpecials rest with
      | [] => [[c]]
      | run :: more => (c :: run) :: more

/-- A byte stream that keeps a record of the calls of `write` made on it; its `write_all` is the usual loop. -/
structure IoRecorder (T : Type) where
  inner : T
  calls : List Bytes

instance {T : Type} [StdIoWrite T] : StdIoWrite (IoRecorder T) where
  write b r := ((StdIoWrite.write b r.inner).1, ⟨(StdIoWrite.write b r.inner).2, r.calls ++ [b]⟩)
  flush r := ((StdIoWrite.flush r.inner).1, ⟨(StdIoWrite.flush r.inner).2, r.calls⟩)

/-- A stream that takes all it is offered in one call. -/
def TakesAll (T : Type) [StdIoWrite T] : Prop := ∀ b (t : T), (StdIoWrite.write b t).1 = .ok b.length

end Stylish.Spec
