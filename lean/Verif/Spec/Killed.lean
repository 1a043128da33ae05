import Verif.Spec.Buffered
import Verif.Spec.Text
/-
Specification vocabulary: a program that is killed (C103).
-/

namespace Stylish.Spec

/-- The device of a process that is about to be killed: `left` more calls of the device are answered, then the process
is no more. (A kill in the middle of a call is one that comes right after a call that took a part of the bytes: the
device is any device, so it may take any part.) -/
structure Mortal (T : Type) where
  device : T
  left : Nat
  deriving DecidableEq

/-- To the process, a call during which it is killed is one that never returns. -/
instance {T : Type} [StdIoWrite T] : StdIoWrite (Mortal T) where
  write b m := match m.left with
    | 0 => (.diverge, m)
    | left + 1 => ((StdIoWrite.write b m.device).1, ⟨(StdIoWrite.write b m.device).2, left⟩)
  flush m := match m.left with
    | 0 => (.diverge, m)
    | left + 1 => ((StdIoWrite.flush m.device).1, ⟨(StdIoWrite.flush m.device).2, left⟩)

/-- One thing a program does with its writer. -/
inductive Step where
  | text (args : Arguments)
  | flush

/-- Do it. -/
def Step.run {W : Type} [IoWrite W] : Step → Act W IoError Unit
  | text args => IoWrite.writeFmt args
  | flush => IoWrite.flush

/-- What the program does: one step after another, as long as they return `Ok`. -/
def play {W : Type} [IoWrite W] : List Step → Act W IoError Unit
  | [] => pure ()
  | step :: rest => do step.run; play rest

/-- The steps that returned `Ok`. -/
def answered {W : Type} [IoWrite W] : List Step → W → List Step
  | [], _ => []
  | step :: rest, w => match step.run w with
    | (.ok (), w) => step :: answered rest w
    | _ => []

/-- The steps up to the last flush. -/
def upToFlush : List Step → List Step
  | [] => []
  | .flush :: rest => .flush :: upToFlush rest
  | .text args :: rest => if (upToFlush rest).isEmpty then [] else .text args :: upToFlush rest

/-- The text of the steps: what they write to a writer that takes everything. -/
def said : List Step → List Chunk
  | [] => []
  | .text args :: rest => (writes args.f Style.default FormatterArgs.default).1 ++ said rest
  | .flush :: rest => said rest

/-- The steps format without an error of their own, and their programs pass on failures (as everything the macros make
does: C53). -/
def Sound (steps : List Step) : Prop :=
  ∀ args, .text args ∈ steps →
    Propagates args.f ∧ (writes args.f Style.default FormatterArgs.default).2 = .ok ()

end Stylish.Spec
