import Verif.Spec.Text
/-
Specification vocabulary: lines picked out of an output, as by `grep`, `sort`, `uniq`, `tac`, `head` and the like (C109).
-/

namespace Stylish.Spec

/-- The lines of a text, each with the line feed that ends it; the last may have none. `nl` says what a line feed is. -/
def linesOf {α : Type} (nl : α → Bool) : List α → List (List α)
  | [] => []
  | c :: cs =>
    if nl c then [c] :: linesOf nl cs
    else match linesOf nl cs with
      | [] => [[c]]
      | l :: ls => (c :: l) :: ls

/-- The lines with the given numbers, in the given order; none for a number there is no line for. -/
def pick {α : Type} (numbers : List Nat) (ls : List (List α)) : List α := numbers.flatMap fun i => ls.getD i []

/-- The lines of an output. -/
abbrev outLines (s : Str) : List Str := linesOf (· = '\n') s

/-- The lines of a styled text. -/
abbrev textLines (t : Styled) : List Styled := linesOf (·.1 = '\n') t

example : outLines (str "a\n\nb") = [str "a\n", str "\n", str "b"] ∧ outLines (str "a\n") = [str "a\n"] ∧
    pick [2, 0, 7, 0] (outLines (str "a\n\nb")) = str "ba\na\n" := by decide

end Stylish.Spec
