import Verif.Spec.Buffered
import Verif.Model.Api
import Verif.Spec.Text
/-
Specification vocabulary: threads that write to one stream, and the schedules of their calls.

Each thread runs on its own; it meets the others only in the stream. A call of the stream is one turn of the thread:
the stream (its lock, or the operating system) answers one call at a time, and between two calls of one thread the
others may have had any number of turns.
-/

namespace Stylish.Spec

/-- A call a thread makes of the stream. -/
inductive StreamCall where
  | write (b : Bytes)
  | writeAll (fuel : Nat) (b : Bytes)
  | flush
  deriving DecidableEq, Repr

/-- What a call makes of the stream. -/
def StreamCall.perform {T : Type} [StdIoWrite T] : StreamCall → T → T
  | .write b, t => (StdIoWrite.write b t).2
  | .writeAll fuel b, t => (StdIoWrite.writeAll fuel b t).2
  | .flush, t => (StdIoWrite.flush t).2

/-- The stream as one thread sees it. `coming`: the states it will be in at the next calls of the thread. `past`: the
states before and after the calls the thread has made. `asked`: the call for which the thread is waiting, when its
turns are over. `whole` says whether the stream answers `write_all` as one call (as `Stdout`, which is locked
meanwhile), or the thread calls `write` again and again (std's default method). -/
structure Turns (whole : Bool) (T : Type) where
  coming : List T
  past : List (T × T)
  asked : Option StreamCall

namespace Turns
variable {whole : Bool} {T : Type}

/-- A call: answered by the stream in the state it is in at the turn; a thread without a turn waits (it has not
returned). -/
def call {A : Type} (c : StreamCall) (x : Act T IoError A) : Act (Turns whole T) IoError A := fun s =>
  match s.coming with
  | [] => (.diverge, { s with asked := some c })
  | t :: rest => ((x t).1, ⟨rest, s.past ++ [(t, (x t).2)], s.asked⟩)

instance [StdIoWrite T] : StdIoWrite (Turns whole T) where
  write b := call (.write b) (StdIoWrite.write b)
  flush := call .flush StdIoWrite.flush
  writeAll fuel b :=
    if whole then call (.writeAll fuel b) (StdIoWrite.writeAll fuel b)
    else stdWriteAll (fun b => call (.write b) (StdIoWrite.write b)) fuel b

end Turns

/-- One thing a thread does: format into an `io::Ansi` of its own around the shared stream and finish it, format into
an `io::Plain` of its own, or flush the stream. -/
inductive Job where
  | ansi (args : Arguments)
  | plain (args : Arguments)
  | flush

/-- What is formatted propagates errors. -/
def Job.Propagates : Job → Prop
  | .ansi args => Spec.Propagates args.f
  | .plain args => Spec.Propagates args.f
  | .flush => True

/-- The same in memory: `ansi::format` or `plain::format`. -/
def Job.format : Job → Res Empty Str
  | .ansi args => ansiFormat args
  | .plain args => plainFormat args
  | .flush => .ok []

/-- What is to be seen of it, each piece of text in its style (`io::Plain` has none), and how formatting ends. -/
def Job.styled : Job → List Chunk × Res FmtError Unit
  | .ansi args => writes args.f Style.default FormatterArgs.default
  | .plain args =>
    let x := writes args.f Style.default FormatterArgs.default
    (x.1.map fun ch => (ch.1, Style.default), x.2)
  | .flush => ([], .ok ())

/-- The thread at work on a stream. -/
def Job.run {T : Type} [StdIoWrite T] (fuel : Nat) : Job → Act T IoError Unit
  | .ansi args => fun t =>
    let x := (IoWrite.writeFmt args >>= fun _ => IoAnsi.finish) (IoAnsi.new t : IoAnsi fuel T)
    (x.1, x.2.inner)
  | .plain args => fun t =>
    let x := IoWrite.writeFmt args (IoPlain.new t : IoPlain fuel T)
    (x.1, x.2.inner)
  | .flush => StdIoWrite.flush

/-- What a thread does: one job after the other; an error ends it (`?`). -/
def Job.runAll {T : Type} [StdIoWrite T] (fuel : Nat) : List Job → Act T IoError Unit
  | [] => pure ()
  | job :: jobs => do
    job.run fuel
    runAll fuel jobs

/-- The stream, and for every thread the states in which it has found the stream at its turns. -/
structure World (T : Type) where
  device : T
  had : Nat → List T

namespace World
variable {T : Type} [StdIoWrite T] (whole : Bool) (fuel : Nat) (jobs : Nat → List Job)

/-- Before the first turn. -/
def start (t : T) : World T := ⟨t, fun _ => []⟩

/-- How far thread `i` has come with the turns it has had. -/
def thread (i : Nat) (w : World T) : Res IoError Unit × Turns whole T :=
  Job.runAll fuel (jobs i) ⟨w.had i, [], none⟩

/-- A turn of thread `i`: the stream answers the call it is waiting for. (A thread that has returned does nothing with
its turn.) -/
def turn (w : World T) (i : Nat) : World T :=
  match (thread whole fuel jobs i w).2.asked with
  | none => w
  | some c => ⟨c.perform w.device, fun j => if j = i then w.had i ++ [w.device] else w.had j⟩

/-- The turns of a schedule. -/
def run (schedule : List Nat) (w : World T) : World T := schedule.foldl (turn whole fuel jobs) w

/-- Turn by turn: the thread that had it, and the bytes that were written in it. -/
def log (k : IoSink T) : List Nat → World T → List (Nat × Bytes)
  | [], _ => []
  | i :: rest, w =>
    (i, (k.delivered (turn whole fuel jobs w i).device).drop (k.delivered w.device).length) ::
      log k rest (turn whole fuel jobs w i)

/-- Thread `i` has returned `r`. -/
def Returned (i : Nat) (r : Res IoError Unit) (w : World T) : Prop :=
  (thread whole fuel jobs i w).2.asked = none ∧ (thread whole fuel jobs i w).1 = r

/-- Thread `i` has done the first `m` of its jobs, with all the turns it has had: it is between two jobs, or at its
end. -/
def Between (i m : Nat) (w : World T) : Prop :=
  let x := Job.runAll fuel ((jobs i).take m) (⟨w.had i, [], none⟩ : Turns whole T)
  m ≤ (jobs i).length ∧ x.1 = .ok () ∧ x.2.coming = [] ∧ x.2.asked = none

end World

/-- A thread keeps the stream to itself (it holds the lock) for a number of turns, in which it does a number of jobs. -/
structure Hold where
  thread : Nat
  turns : Nat
  jobs : Nat

/-- The schedule of holds one after the other. -/
def Hold.schedule (holds : List Hold) : List Nat := holds.flatMap fun h => List.replicate h.turns h.thread

/-- How many jobs thread `i` does in the holds. -/
def Hold.done (i : Nat) (holds : List Hold) : Nat := ((holds.filter (fun h => h.thread = i)).map Hold.jobs).sum

/-- What the threads have to say (`said i`, job by job), in the order of the holds. -/
def Hold.inOrder {A : Type} (said : Nat → List A) : List Hold → List A
  | [] => []
  | h :: rest => (said h.thread).take h.jobs ++
      inOrder (fun i => if i = h.thread then (said i).drop h.jobs else said i) rest

/-- What was written in the turns of thread `i`, turn by turn. -/
def turnsOf (i : Nat) (log : List (Nat × Bytes)) : List Bytes := (log.filter (fun x => x.1 = i)).map Prod.snd

end Stylish.Spec
