import Verif.Model.Types
/-
What can be sent to and shared with other threads, and kept over a caught panic: C96.
-/

namespace Stylish.Props

open Types

/-- The writers around a value of type `t`. -/
def writersOf (t : Ty) : List Ty := [ansi t, html t, plain t, ioAnsi t, ioPlain t]

/-- C96, writers: each of them can be sent, shared, moved and so on exactly if what it writes to can. -/
theorem C96_writers (given : Nat → Auto → Bool) (a : Auto) (t w : Ty) (h : w ∈ writersOf t) :
    has given a w = has given a t := by
  simp only [writersOf, List.mem_cons, List.not_mem_nil, or_false] at h
  rcases h with rfl | rfl | rfl | rfl | rfl <;>
    simp [ansi, html, plain, ioAnsi, ioPlain, struct, style, color, intensity, has]

/-- C96, values: styles, restylings and attributed strings can be sent, shared and so on without restriction. -/
theorem C96_values (given : Nat → Auto → Bool) (a : Auto) :
    ∀ t ∈ [color, intensity, style, styleDiff, foreground, background, string], has given a t = true := by
  intro t ht
  simp only [List.mem_cons, List.not_mem_nil, or_false] at ht
  rcases ht with rfl | rfl | rfl | rfl | rfl | rfl | rfl <;>
    simp [color, intensity, style, styleDiff, foreground, background, string, struct, has]

/-- C96, what is being formatted: neither the value of `format_args!` nor a `Formatter` can leave its thread, whatever
the arguments are, or be used again after a caught panic without an assertion; both can be moved freely. -/
theorem C96_formatting (given : Nat → Auto → Bool) (a : Auto) :
    ∀ t ∈ [arguments, formatter], has given a t = decide (a = .unpin) := by
  intro t ht
  simp only [List.mem_cons, List.not_mem_nil, or_false] at ht
  rcases ht with rfl | rfl <;> cases a <;>
    simp [arguments, formatter, formatterArgs, style, color, intensity, struct, has]

/-- Non-vacuity: a writer into something that can be sent but not shared. -/
example : has (fun _ a => decide (a = .send)) .send (ansi (html (.var 0))) = true ∧
    has (fun _ a => decide (a = .send)) .sync (ansi (html (.var 0))) = false := by
  decide

end Stylish.Props
