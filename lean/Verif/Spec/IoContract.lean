import Verif.Model.Io
/-
Specification vocabulary: the contracts of `std::io::Write::write` and `write_all`.
-/

namespace Stylish.Spec

/-- The contract of `write` (std documentation): `Ok(n)` means `n <= buf.len()` and exactly the first `n`
bytes were written, an error means that nothing was written. (If it panics, some prefix was written.)
`img` is how a byte shows up among what was delivered. -/
structure WriteContract {W α : Type} (write : Bytes → Act W IoError Nat) (img : UInt8 → α)
    (delivered : W → List α) : Prop where
  ok : ∀ (buf : Bytes) (w w' : W) (n : Nat), write buf w = (.ok n, w') →
    n ≤ buf.length ∧ delivered w' = delivered w ++ (buf.take n).map img
  err : ∀ (buf : Bytes) (w w' : W) (e : IoError), write buf w = (.err e, w') →
    delivered w' = delivered w
  other : ∀ (buf : Bytes) (w w' : W) (r : Res IoError Nat), write buf w = (r, w') →
    (r = .panic ∨ r = .diverge) → ∃ p, p <+: buf ∧ delivered w' = delivered w ++ p.map img

/-- `write` never fails: offered a non-empty buffer it accepts at least one byte or says `Interrupted`, if it
returns. -/
def NonFailing {W : Type} (write : Bytes → Act W IoError Nat) : Prop :=
  ∀ (buf : Bytes) (w : W), buf ≠ [] →
    (∃ n, (write buf w).1 = .ok (n + 1)) ∨ (∃ e, (write buf w).1 = .err e ∧ e.kind = .Interrupted) ∨
    (write buf w).1 = .diverge

/-- Offered `buf` again and again, `write` says `Interrupted` at most `n` times in a row. -/
def Patient {W : Type} (write : Bytes → Act W IoError Nat) (buf : Bytes) : Nat → W → Prop
  | 0, w => ∀ e, (write buf w).1 = .err e → e.kind ≠ .Interrupted
  | n + 1, w => ∀ e, (write buf w).1 = .err e → e.kind = .Interrupted →
      Patient write buf n (write buf w).2

/-- From every state, `write` returns, and there are only finitely many interruptions in a row. -/
def FinitelyInterrupted {W : Type} (write : Bytes → Act W IoError Nat) : Prop :=
  ∀ buf w, (write buf w).1 ≠ .diverge ∧ ∃ n, Patient write buf n w

/-- The contract of a stream's `write_all` (std documentation): `Ok` means that the whole buffer was written; an
error is never `Interrupted` and means that no more than a prefix of the buffer was. For a buffer without line
breaks that prefix is proper. (A line-buffered stream may report that passing on a line failed although it holds the
whole of it, and any buffered stream may report on an empty buffer that passing on an earlier one failed.) -/
structure WriteAllContract {W : Type} (writeAll : Nat → Bytes → Act W IoError Unit) (delivered : W → Bytes) :
    Prop where
  ok : ∀ (fuel : Nat) (buf : Bytes) (w w' : W), writeAll fuel buf w = (.ok (), w') →
    delivered w' = delivered w ++ buf
  err : ∀ (fuel : Nat) (buf : Bytes) (w w' : W) (e : IoError), writeAll fuel buf w = (.err e, w') →
    e.kind ≠ .Interrupted ∧
    ∃ p, p <+: buf ∧ (buf ≠ [] → 10 ∉ buf → p ≠ buf) ∧ delivered w' = delivered w ++ p
  other : ∀ (fuel : Nat) (buf : Bytes) (w w' : W) (r : Res IoError Unit), writeAll fuel buf w = (r, w') →
    (r = .panic ∨ r = .diverge) → ∃ p, p <+: buf ∧ delivered w' = delivered w ++ p

/-- A `std::io::Write` sink obeying the contracts. (For a stream with std's default `write_all` the second follows
from the first: `WriteAllContract.default`.) -/
structure IoSink (T : Type) [StdIoWrite T] where
  delivered : T → Bytes
  contract : WriteContract (StdIoWrite.write (T := T)) id delivered
  all : WriteAllContract (StdIoWrite.writeAll (T := T)) delivered

/-- The stream never fails: `write` is as in `NonFailing`, and `write_all` returns `Ok` if it returns. (For a stream
with std's default `write_all` the second follows from the first: `ReliableStream.default`.) -/
structure ReliableStream (T : Type) [StdIoWrite T] : Prop where
  write : NonFailing (StdIoWrite.write (T := T))
  writeAll : ∀ (fuel : Nat) (buf : Bytes) (t : T),
    (StdIoWrite.writeAll fuel buf t).1 = .ok () ∨ (StdIoWrite.writeAll fuel buf t).1 = .diverge

/-- The stream keeps nobody waiting for ever: only finitely many interruptions of `write` in a row, and `write_all`
returns. (For a stream that never fails and has std's default `write_all` the second follows from the first:
`KeepsGoing.default`.) -/
structure KeepsGoing (T : Type) [StdIoWrite T] : Prop where
  write : FinitelyInterrupted (StdIoWrite.write (T := T))
  writeAll : ∀ (buf : Bytes) (t : T), ∃ enough r t', r ≠ .diverge ∧
    ∀ fuel, enough ≤ fuel → StdIoWrite.writeAll fuel buf t = (r, t')

end Stylish.Spec
