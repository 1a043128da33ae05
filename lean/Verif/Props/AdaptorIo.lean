import Verif.Spec.Adaptor
import Verif.Props.IoText
/-
Byte writers of the user's own: C118.
-/

namespace Stylish.Props

open Spec

variable {T : Type} [StdIoWrite T]

/-! ## C118 for byte streams -/

namespace Adaptors

theorem io_loop {W : Type} [IoWrite W] (g : Style → Style) (fuel n : Nat) (buf : Bytes) (st : Style) (w : W) :
    defaultWriteAll (IoRestyled.put (fuel := fuel) (g := g) (W := W)) n buf st ⟨w⟩ =
    ((defaultWriteAll IoWrite.write n buf (g st) w).1, ⟨(defaultWriteAll IoWrite.write n buf (g st) w).2⟩) := by
  induction n generalizing buf w with
  | zero =>
    rw [defaultWriteAll, defaultWriteAll]
    by_cases h : buf.isEmpty = true
    · simp only [h, if_true]
    · simp only [if_neg h]
  | succ n ih =>
    rw [defaultWriteAll, defaultWriteAll]
    by_cases h : buf.isEmpty = true
    · simp only [h, if_true]
    · simp only [if_neg h, IoRestyled.put]
      rcases IoWrite.write buf (g st) w with ⟨r, w'⟩
      cases r with
      | ok m =>
        cases m with
        | zero => rfl
        | succ m =>
          by_cases hm : m + 1 ≤ buf.length
          · simpa only [if_pos hm] using ih _ _
          · simp only [if_neg hm]
      | err e =>
        by_cases he : e.kind = .Interrupted
        · simpa only [if_pos he] using ih _ _
        · simp only [if_neg he]
      | panic => rfl
      | diverge => rfl

theorem io_str (g : Style → Style) {fuel : Nat} (s : Str) (st : Style) (a : IoAnsi fuel T) (e : Option IoError) :
    Write.writeStr s st (⟨⟨a⟩, e⟩ : ErrorTrap (IoRestyled fuel g (IoAnsi fuel T))) =
      ((Write.writeStr s (g st) (⟨a, e⟩ : ErrorTrap (IoAnsi fuel T))).1,
        ⟨⟨(Write.writeStr s (g st) (⟨a, e⟩ : ErrorTrap (IoAnsi fuel T))).2.inner⟩,
          (Write.writeStr s (g st) (⟨a, e⟩ : ErrorTrap (IoAnsi fuel T))).2.error⟩) := by
  have h := io_loop g fuel fuel (utf8 s) st a
  have e1 : IoWrite.writeAll (utf8 s) st (⟨a⟩ : IoRestyled fuel g (IoAnsi fuel T)) =
    ((IoWrite.writeAll (utf8 s) (g st) a).1, ⟨(IoWrite.writeAll (utf8 s) (g st) a).2⟩) := h
  simp only [Write.writeStr, e1]
  rcases IoWrite.writeAll (utf8 s) (g st) a with ⟨r, a'⟩
  cases r <;> rfl

theorem io_chunks (g : Style → Style) {fuel : Nat} (chs : List Chunk) (a : IoAnsi fuel T) (e : Option IoError) :
    writeChunks chs (⟨⟨a⟩, e⟩ : ErrorTrap (IoRestyled fuel g (IoAnsi fuel T))) =
      let x := writeChunks (chs.map fun ch => (ch.1, g ch.2)) (⟨a, e⟩ : ErrorTrap (IoAnsi fuel T))
      (x.1, ⟨⟨x.2.inner⟩, x.2.error⟩) := by
  induction chs generalizing a e with
  | nil => rfl
  | cons ch chs ih =>
    rw [List.map_cons, writeChunks_cons, writeChunks_cons, io_str]
    rcases Write.writeStr ch.1 (g ch.2) (⟨a, e⟩ : ErrorTrap (IoAnsi fuel T)) with ⟨r, x⟩
    cases r with
    | ok u => exact ih _ _
    | err _ => rfl
    | panic => rfl
    | diverge => rfl

end Adaptors

/-- C118: a byte writer that exchanges the styles, over `io::Ansi` on any stream, with short writes, interruptions and failures:
`write!` on it returns what `write!` of the same texts in the exchanged styles returns straight on `io::Ansi`, the same error
included, and leaves the same behind. -/
theorem C118_io (g : Style → Style) {fuel : Nat} (args args' : Arguments) (hp : Propagates args.f) (hp' : Propagates args'.f)
    (log : List Chunk) (out : Res FmtError Unit) (h : writes args.f Style.default FormatterArgs.default = (log, out))
    (h' : writes args'.f Style.default FormatterArgs.default = (log.map fun ch => (ch.1, g ch.2), out)) (a : IoAnsi fuel T) :
    (IoWrite.writeFmt args (⟨a⟩ : IoRestyled fuel g (IoAnsi fuel T))).1 = (IoWrite.writeFmt args' a).1 ∧
    (IoWrite.writeFmt args (⟨a⟩ : IoRestyled fuel g (IoAnsi fuel T))).2.inner = (IoWrite.writeFmt args' a).2 := by
  unfold IoWrite.writeFmt
  rw [Write.writeFmt_propagates args hp, Write.writeFmt_propagates args' hp', denote, denote, h, h']
  have e := Adaptors.io_chunks g log a none
  rw [ErrorTrap.new, ErrorTrap.new, e]
  simp only
  generalize writeChunks (List.map _ log) (⟨a, none⟩ : ErrorTrap (IoAnsi fuel T)) = y
  obtain ⟨r, x⟩ := y
  cases r with
  | ok u => cases out <;> exact ⟨rfl, rfl⟩
  | err _ => exact ⟨rfl, rfl⟩
  | panic => exact ⟨rfl, rfl⟩
  | diverge => exact ⟨rfl, rfl⟩

/-- A program that makes the given writes. -/
def showAll : List Chunk → Disp
  | [] => .done .ok
  | (s, st) :: rest => .within (.of st) (.writeStr s fun r => .done r) (Disp.try_ (showAll rest))

/-! ### Samples -/

/-- The conditions are met, on a stream that takes little at a time and is interrupted. -/
example :
    let g : Style → Style := fun _ => Style.default
    let log : List Chunk := [(['a', 'b'], ⟨.Red, .Default, .Normal⟩), (['c'], Style.default)]
    let args : Arguments := ⟨showAll log⟩
    let args' : Arguments := ⟨showAll (log.map fun ch => (ch.1, g ch.2))⟩
    writes args.f Style.default FormatterArgs.default = (log, .ok ()) ∧
    writes args'.f Style.default FormatterArgs.default = (log.map fun ch => (ch.1, g ch.2), .ok ()) ∧
    (IoWrite.writeFmt args (⟨IoAnsi.new ⟨[some 0, none], []⟩⟩ : IoRestyled 9 g (IoAnsi 9 ScheduleSink))).2.inner.inner.got =
      utf8 ['a', 'b', 'c'] := by
  decide +kernel

end Stylish.Props
