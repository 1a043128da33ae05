import Verif.Spec.Pick
/-
Specification for C121: a new text made of whole lines of several outputs and of text between them, as by `paste`, `nl`, `cat -n`,
`sed 's/^/> /'`, `docker compose logs` and the like.
-/

namespace Stylish.Spec

/-- A line without the line feed at its end, if there is one. -/
def chomp {α : Type} (nl : α → Bool) (l : List α) : List α := if l.getLast?.map nl = some true then l.dropLast else l

/-- What the new text is made of: text of its own, or a line of one of the outputs, without the line feed at its end. -/
inductive Snippet where
  | text (s : Str)
  | line (output number : Nat)
  deriving DecidableEq, Repr

/-- One part of the new text; nothing for a line there is not. `own` turns text of its own into what the outputs are made of. -/
def Snippet.part {α : Type} (nl : α → Bool) (own : Str → List α) (outs : List (List α)) : Snippet → List α
  | .text s => own s
  | .line d i => chomp nl ((linesOf nl (outs.getD d [])).getD i [])

/-- The new text, made of outputs. -/
def arrangeOut (outs : List Str) (items : List Snippet) : Str := items.flatMap (Snippet.part (· = '\n') id outs)

/-- The new text, made of the styled texts; the text of its own is in no style. -/
def arrangeText (texts : List Styled) (items : List Snippet) : Styled :=
  items.flatMap (Snippet.part (·.1 = '\n') (fun s => paint s Style.default) texts)

/-- The first `n` lines of two outputs side by side, as by `paste`. -/
def sideBySide (n : Nat) : List Snippet :=
  (List.range n).flatMap fun i => [.line 0 i, .text ['\t'], .line 1 i, .text ['\n']]

/-- The first `n` lines of an output, each with text before it, as by `sed 's/^/> /'`. -/
def quoted (prefix_ : Str) (n : Nat) : List Snippet :=
  (List.range n).flatMap fun i => [.text prefix_, .line 0 i, .text ['\n']]

/-- The text of its own has none of these characters. -/
def OwnWithout (bad : List Char) (items : List Snippet) : Prop := ∀ s, Snippet.text s ∈ items → ∀ c ∈ s, c ∉ bad

example : arrangeOut [str "a\nb", str "1\n2\n"] (sideBySide 3) = str "a\t1\nb\t2\n\t\n" ∧
    arrangeOut [str "a\n\nb"] (quoted (str "> ") 3) = str "> a\n> \n> b\n" := by decide +kernel

end Stylish.Spec
