import Verif.Spec.CarryOn
/-
Specification vocabulary: threads that share one writer, which each call of `write_str` locks for itself (a user's
`impl stylish::Write` for a handle to a `Mutex<W>`, say).

Each thread runs on its own; it meets the others only in the writer. A `write_str` is one turn of the thread: between
two of them the others may have had any number of turns.
-/

namespace Stylish.Spec

/-- The shared writer as one thread sees it. `coming`: the states it will be in at the next calls of the thread.
`asked`: the call for which the thread is waiting, when its turns are over. -/
structure Handle (W : Type) where
  coming : List W
  asked : Option Chunk

/-- A call: answered by the writer in the state it is in at the turn; a thread without a turn waits (it has not
returned). -/
instance {W : Type} [Write W] : Write (Handle W) where
  writeStr s style := fun h =>
    match h.coming with
    | [] => (.diverge, { h with asked := some (s, style) })
    | w :: rest => ((Write.writeStr s style w).1, { h with coming := rest })

/-- A thread makes some calls of `write!` on its handle one after the other and carries on whatever comes of each: an
error is ignored, a panic is caught. The results of the calls that have returned, and the handle. -/
def Handle.work {W : Type} [Write W] : List Arguments → Handle W → List (Res FmtError Unit) × Handle W
  | [], h => ([], h)
  | x :: xs, h =>
    match Write.writeFmt x h with
    | (.diverge, h') => ([], h')
    | (r, h') => let others := work xs h'; (r :: others.1, others.2)

/-- The writer, and for every thread the states in which it has found the writer at its turns. -/
structure Meeting (W : Type) where
  writer : W
  had : Nat → List W

namespace Meeting
variable {W : Type} [Write W] (calls : Nat → List Arguments)

/-- Before the first turn. -/
def start (w : W) : Meeting W := ⟨w, fun _ => []⟩

/-- How far thread `i` has come with the turns it has had. -/
def thread (i : Nat) (m : Meeting W) : List (Res FmtError Unit) × Handle W :=
  Handle.work (calls i) ⟨m.had i, none⟩

/-- The call thread `i` is waiting for; none if it has returned. -/
def waits (i : Nat) (m : Meeting W) : Option Chunk := (thread calls i m).2.asked

/-- A turn of thread `i`: the writer answers the call it is waiting for. (A thread that has returned does nothing with
its turn.) -/
def turn (m : Meeting W) (i : Nat) : Meeting W :=
  match waits calls i m with
  | none => m
  | some ch => ⟨(Write.writeStr ch.1 ch.2 m.writer).2, fun j => if j = i then m.had i ++ [m.writer] else m.had j⟩

/-- The turns of a schedule. -/
def run (schedule : List Nat) (m : Meeting W) : Meeting W := schedule.foldl (turn calls) m

/-- The calls of `write_str` in the order in which they were answered: the thread, and what it wrote. -/
def log : List Nat → Meeting W → List (Nat × Chunk)
  | [], _ => []
  | i :: rest, m =>
    match waits calls i m with
    | none => log rest (turn calls m i)
    | some ch => (i, ch) :: log rest (turn calls m i)

end Meeting

/-- What thread `i` wrote. -/
def writtenBy (i : Nat) (log : List (Nat × Chunk)) : List Chunk := (log.filter (fun x => x.1 = i)).map Prod.snd

end Stylish.Spec
