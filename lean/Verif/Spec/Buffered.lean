import Verif.Spec.IoSink
import Verif.Model.StdBuffer
/-
Specification vocabulary: what a buffered stream holds, and the devices below it.
-/

namespace Stylish.Spec

/-- A call of `write` that panics (or never returns) has written nothing. -/
def QuietPanics {T : Type} [StdIoWrite T] (k : IoSink T) : Prop :=
  ∀ (b : Bytes) (t t' : T) (r : Res IoError Nat), StdIoWrite.write b t = (r, t') → (r = .panic ∨ r = .diverge) →
    k.delivered t' = k.delivered t

/-- `flush` adds nothing to what was written. -/
def FlushKeeps {T : Type} [StdIoWrite T] (k : IoSink T) : Prop :=
  ∀ (t t' : T) (r : Res IoError Unit), StdIoWrite.flush t = (r, t') → k.delivered t' = k.delivered t

/-- `write` returns, and says `Interrupted` at most `p` times in a row, whatever it is offered and whatever went
before. -/
def Steady (p : Nat) (T : Type) [StdIoWrite T] : Prop :=
  ∀ (b : Bytes) (t : T), (StdIoWrite.write b t).1 ≠ .diverge ∧ Patient StdIoWrite.write b p t

/-- Everything written to a buffered stream: what the device has, then what is still in the buffer. -/
def BufWriter.held {cap fuel : Nat} {T : Type} [StdIoWrite T] (k : IoSink T) (s : BufWriter cap fuel T) : Bytes :=
  k.delivered s.inner ++ s.buf

/-- Everything written to a line-buffered stream. -/
def LineWriter.held {cap fuel : Nat} {keep : Bytes → Nat → Nat} {T : Type} [StdIoWrite T] (k : IoSink T)
    (s : LineWriter cap fuel keep T) : Bytes :=
  k.delivered s.buffer.inner ++ s.buffer.buf

end Stylish.Spec
