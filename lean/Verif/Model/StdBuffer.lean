import Verif.Model.Io
/-
Model of the standard library's buffered streams (external): `std::io::BufWriter` and `std::io::LineWriter`, which
is what `std::io::Stdout` is. They are the streams the documentation of stylish writes to (core/src/io.rs:60, 107,
131, 167, 212, 234, `stylish::io::plain(std::io::stdout())`).

`cap` is the capacity of the buffer, `fuel` bounds the retry loop of `flush_buf` (see Io.lean). Not modelled: the lock
of `Stdout` and its treatment of a closed descriptor.
-/

namespace Stylish

/-- `std::io::BufWriter<T>` (external): a stream and the bytes not yet passed on to it, never more than the capacity.
(a stream that plain/src/io.rs:42 and ansi/src/io.rs:55 accept) -/
structure BufWriter (cap fuel : Nat) (T : Type) where
  inner : T
  buf : Bytes
  fits : buf.length ≤ cap
  deriving DecidableEq

namespace BufWriter
variable {cap fuel : Nat} {T : Type}

/-- `BufWriter::with_capacity` (external). (see the file header) -/
def new (inner : T) : BufWriter cap fuel T := ⟨inner, [], by simp⟩

/-- `BufWriter::spare_capacity` (external). (see the file header) -/
def spare (s : BufWriter cap fuel T) : Nat := cap - s.buf.length

/-- Run an action on the inner stream. (see the file header) -/
def onInner {E A : Type} (x : Act T E A) : Act (BufWriter cap fuel T) E A :=
  fun s => let (r, t) := x s.inner; (r, { s with inner := t })

/-- `BufWriter::flush_buf` (external): offer the buffer to the inner stream until all of it has been accepted; what
has been accepted leaves the buffer, also when an error ends the loop. (see the file header) -/
def flushBuf [StdIoWrite T] : Nat → Act (BufWriter cap fuel T) IoError Unit
  | 0 => fun s => if s.buf.isEmpty then (.ok (), s) else (.diverge, s)
  | n + 1 => fun s =>
    if s.buf.isEmpty then (.ok (), s)
    else match StdIoWrite.write s.buf s.inner with
      | (.ok 0, t) => (.err ⟨.WriteZero, "failed to write the buffered data"⟩, { s with inner := t })
      | (.ok (m + 1), t) =>
        if m + 1 ≤ s.buf.length then
          flushBuf n ⟨t, s.buf.drop (m + 1), Nat.le_trans (by simp) s.fits⟩
        else (.panic, { s with inner := t })
      | (.err e, t) =>
        if e.kind = .Interrupted then flushBuf n { s with inner := t } else (.err e, { s with inner := t })
      | (.panic, t) => (.panic, { s with inner := t })
      | (.diverge, t) => (.diverge, { s with inner := t })

/-- `BufWriter::write_to_buffer_unchecked` (external). Without room for the bytes this would be undefined behaviour,
`panic` here; it is never called then (`BufWriter.push_ok`). (see the file header) -/
def push (b : Bytes) : Act (BufWriter cap fuel T) IoError Nat := fun s =>
  if h : s.buf.length + b.length ≤ cap then (.ok b.length, ⟨s.inner, s.buf ++ b, by simpa using h⟩)
  else (.panic, s)

/-- The start of `write_cold` and `write_all_cold` (external): make room if the bytes do not fit. (see the file
header) -/
def makeRoom [StdIoWrite T] (b : Bytes) : Act (BufWriter cap fuel T) IoError Unit := fun s =>
  if s.spare < b.length then flushBuf fuel s else (.ok (), s)

/-- `BufWriter::write`, with `write_cold` (external). (see the file header) -/
def write [StdIoWrite T] (b : Bytes) : Act (BufWriter cap fuel T) IoError Nat := fun s =>
  if b.length < s.spare then push b s
  else (makeRoom b >>= fun _ => if cap ≤ b.length then onInner (StdIoWrite.write b) else push b) s

/-- `BufWriter::write_all`, with `write_all_cold` (external). (see the file header) -/
def writeAll [StdIoWrite T] (n : Nat) (b : Bytes) : Act (BufWriter cap fuel T) IoError Unit := fun s =>
  if b.length < s.spare then (push b >>= fun _ => pure ()) s
  else (makeRoom b >>= fun _ =>
    if cap ≤ b.length then onInner (StdIoWrite.writeAll n b) else push b >>= fun _ => pure ()) s

/-- `BufWriter::flush` (external). (see the file header) -/
def flush [StdIoWrite T] : Act (BufWriter cap fuel T) IoError Unit :=
  flushBuf fuel >>= fun _ => onInner StdIoWrite.flush

/-- `impl Drop for BufWriter` (external): the buffer is flushed, and whatever `flush_buf` returns is ignored; this is
what becomes of the device. (It is dropped without a flush if the device panicked in a `write`.) (see the file
header) -/
def drop [StdIoWrite T] (s : BufWriter cap fuel T) : T := (flushBuf fuel s).2.inner

/-- `impl Write for BufWriter` (external). (see the file header) -/
instance [StdIoWrite T] : StdIoWrite (BufWriter cap fuel T) where
  write := write
  flush := flush
  writeAll := writeAll

end BufWriter

/-- `memchr::memrchr` (external): the position of the last `x`. (used by `LineWriter`, see the file header) -/
def memrchr (x : UInt8) : Bytes → Option Nat
  | [] => none
  | y :: ys => match memrchr x ys with
    | some i => some (i + 1)
    | none => if y = x then some 0 else none

/-- `std::io::LineWriter<T>` (external): a `BufWriter` that passes complete lines on. `keep b n` is how many of the
bytes of `b` that come after the `n` accepted by the inner stream `write` tries to buffer: std's choice, which has
changed between versions, so any choice here. (see the file header) -/
structure LineWriter (cap fuel : Nat) (keep : Bytes → Nat → Nat) (T : Type) where
  buffer : BufWriter cap fuel T
  deriving DecidableEq

/-- The choice of `LineWriterShim::write` as of Rust 1.80 (external), for capacity `cap`: if the lines were accepted, what
follows them if it fits; else the rest of the lines if it fits; else as many of the lines as fit, or as many bytes if
none does. (see the file header) -/
def stdKeep (cap : Nat) (b : Bytes) (flushed : Nat) : Nat :=
  match memrchr 10 b with
  | none => 0
  | some i =>
    if i + 1 ≤ flushed then (if cap ≤ b.length - flushed then 0 else b.length - flushed)
    else if i + 1 - flushed ≤ cap then i + 1 - flushed
    else match memrchr 10 ((b.drop flushed).take cap) with
      | some j => j + 1
      | none => cap

namespace LineWriter
variable {cap fuel : Nat} {keep : Bytes → Nat → Nat} {T : Type}

/-- `LineWriter::with_capacity` (external). (see the file header) -/
def new (inner : T) : LineWriter cap fuel keep T := ⟨.new inner⟩

/-- Run an action on the `BufWriter`. (see the file header) -/
def onBuffer {E A : Type} (x : Act (BufWriter cap fuel T) E A) : Act (LineWriter cap fuel keep T) E A :=
  fun s => let (r, t) := x s.buffer; (r, ⟨t⟩)

/-- `LineWriterShim::flush_if_completed_line` (external). (see the file header) -/
def flushIfCompletedLine [StdIoWrite T] : Act (LineWriter cap fuel keep T) IoError Unit := fun s =>
  if s.buffer.buf.getLast? = some 10 then onBuffer (BufWriter.flushBuf fuel) s else (.ok (), s)

/-- `BufWriter::write_to_buf` (external): buffer as much as there is room for. (see the file header) -/
def writeToBuf (b : Bytes) : Act (BufWriter cap fuel T) IoError Nat := fun s =>
  BufWriter.push (b.take s.spare) s

/-- `LineWriterShim::write` (external). `&buf[flushed..]` panics if the inner stream claims too much. (see the file
header) -/
def write [StdIoWrite T] (b : Bytes) : Act (LineWriter cap fuel keep T) IoError Nat :=
  match memrchr 10 b with
  | none => do
    flushIfCompletedLine
    onBuffer (BufWriter.write b)
  | some i => do
    onBuffer (BufWriter.flushBuf fuel)
    let flushed ← onBuffer (BufWriter.onInner (StdIoWrite.write (b.take (i + 1))))
    if flushed = 0 then pure 0
    else if flushed ≤ b.length then do
      let buffered ← onBuffer (writeToBuf ((b.drop flushed).take (keep b flushed)))
      pure (flushed + buffered)
    else Act.panicked

/-- `LineWriterShim::write_all` (external): the lines are passed on, what follows is buffered. (see the file header) -/
def writeAll [StdIoWrite T] (n : Nat) (b : Bytes) : Act (LineWriter cap fuel keep T) IoError Unit :=
  match memrchr 10 b with
  | none => do
    flushIfCompletedLine
    onBuffer (BufWriter.writeAll n b)
  | some i => do
    (fun s =>
      if s.buffer.buf.isEmpty then
        onBuffer (BufWriter.onInner (StdIoWrite.writeAll n (b.take (i + 1)))) s
      else
        (onBuffer (BufWriter.writeAll n (b.take (i + 1))) >>= fun _ => onBuffer (BufWriter.flushBuf fuel)) s)
    onBuffer (BufWriter.writeAll n (b.drop (i + 1)))

/-- A `LineWriter` is dropped with its `BufWriter` (external). (see the file header) -/
def drop [StdIoWrite T] (s : LineWriter cap fuel keep T) : T := s.buffer.drop

/-- `impl Write for LineWriter` (external). (see the file header) -/
instance [StdIoWrite T] : StdIoWrite (LineWriter cap fuel keep T) where
  write := write
  flush := onBuffer BufWriter.flush
  writeAll := writeAll

end LineWriter

end Stylish
