import Verif.Spec.Text
/-
Specification vocabulary: texts made of whole lines (C112).
-/

namespace Stylish.Spec

/-- The text is made of whole lines: it is empty or ends with a line feed. -/
def wholeLines (s : Str) : Prop := s = [] ∨ ∃ r, s = r ++ ['\n']

/-- How many lines a text made of whole lines has. -/
def lineCount (s : Str) : Nat := s.count '\n'

example : wholeLines ['a', '\n', 'b', '\n'] ∧ lineCount ['a', '\n', 'b', '\n'] = 2 ∧ ¬ wholeLines ['a', '\n', 'b'] := by
  refine ⟨.inr ⟨['a', '\n', 'b'], rfl⟩, by decide, ?_⟩
  rintro (h | ⟨r, h⟩)
  · cases h
  · have := congrArg List.getLast? h
    simp at this

end Stylish.Spec
