import Verif.Props.Io
import Verif.Props.NoPanic
import Verif.Props.MacroNl
/-
More samples that meet the conditions of theorems in other files.
-/

namespace Stylish.Props

open Spec Spec.Syntax

/-- C24: `io::Plain` around a stream that takes a part of what it is offered, and is interrupted now and then, meets both
conditions on a writer. -/
example (st : Style) : NonFailing (fun b => IoWrite.write (W := IoPlain 9 ScheduleSink) b st) ∧
    FinitelyInterrupted (fun b => IoWrite.write (W := IoPlain 9 ScheduleSink) b st) ∧
    (defaultWriteAll IoWrite.write 9 (utf8 ['h', 'é', '!']) st
      (⟨⟨[none, some 1, none, some 0], []⟩⟩ : IoPlain 9 ScheduleSink)).1 = .ok () := by
  have e : ∀ b (w : IoPlain 9 ScheduleSink), IoWrite.write (W := IoPlain 9 ScheduleSink) b st w =
      ((StdIoWrite.write b w.inner).1, ⟨(StdIoWrite.write b w.inner).2⟩) := fun _ _ => rfl
  refine ⟨fun buf w hb => ?_, fun buf w => ?_, by rfl⟩
  · show (∃ n, (IoWrite.write (W := IoPlain 9 ScheduleSink) buf st w).1 = _) ∨ _
    rw [e]
    exact scheduleSink_reliable.write buf w.inner hb
  · obtain ⟨h1, n, h2⟩ := scheduleSink_keepsGoing.write buf w.inner
    refine ⟨h1, n, ?_⟩
    clear h1
    induction n generalizing w with
    | zero => exact h2
    | succ n ih => exact fun x hx hi => ih _ (h2 x hx hi)

/-- C59: a stream with little room, and one that takes parts and is interrupted, meet the conditions on streams. -/
example : CalmStream LimitedSink ∧ CalmIo ScheduleSink := by
  have h1 : ∀ buf (t : ScheduleSink), (StdIoWrite.write buf t).1 ≠ .panic := by
    intro buf t
    simp only [StdIoWrite.write]
    split <;> simp
  refine ⟨fun s t => ?_, h1, fun t => by simp [StdIoWrite.flush], fun buf t t' n h => (scheduleSink.contract.ok _ _ _ _ h).1,
    fun fuel buf t => ?_⟩
  · simp only [FmtWrite.writeStr]
    split <;> simp
  · rcases scheduleSink_reliable.writeAll fuel buf t with h | h <;> rw [h] <;> simp

/-- C59: a value of std's `Display` that writes and hands on what comes of it does not panic, with any options. -/
example : ∀ o, StdPanicFree ((StdFmt.mk fun o => (textArg (if o.alternate then ['#'] else ['x'])).std .Display o).f o) := by
  intro o
  exact (textArg_panicFree (if o.alternate = true then ['#'] else ['x'])).1 .Display o

theorem some_nl : (formatArgsNl asciiEnv (str "a{}b{y:(bold)s}") [.positional (textArg (str "X"))]
    (fun n => textArg n)).toOption.isSome = true := by decide +kernel

/-- C59: the same call as `format_args_nl!`. -/
example : ∃ x, formatArgsNl asciiEnv (str "a{}b{y:(bold)s}") [.positional (textArg (str "X"))]
      (fun n => textArg n) = .ok x ∧ ∀ w : Ansi LimitedSink, (Write.writeFmt x w).1 ≠ .panic := by
  rcases h : formatArgsNl asciiEnv (str "a{}b{y:(bold)s}") [.positional (textArg (str "X"))]
      (fun n => textArg n) with e | x
  · have := some_nl
    rw [h] at this
    cases this
  · refine ⟨x, rfl, fun w => C59_write_fmt x ?_ ?_ w⟩
    · refine C59_format_args_nl _ _ _ (fun a ha => ?_) (fun n => textArg_panicFree _) x h
      rw [List.mem_singleton.1 ha]
      exact textArg_panicFree _
    · refine (C59_writers (T := LimitedSink) (fun s t => ?_)).2.1
      simp only [FmtWrite.writeStr]
      split <;> simp

end Stylish.Props
