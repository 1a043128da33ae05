import Verif.Spec.Text
import Verif.Spec.Terminal
/-
Specification vocabulary: programs that convert an output into another one: they read it as a terminal or a browser does, and write
what they have read, character by character (C116).
-/

namespace Stylish.Spec

/-- The style of a character on a terminal. -/
def styleOn (a : Attrs) : Style := ⟨a.fg, a.bg, if a.bold then .Bold else if a.faint then .Faint else .Normal⟩

/-- What a program writes that copies a screen. -/
def fromScreen (screen : List (Char × Attrs)) : List Chunk := screen.map fun x => ([x.1], styleOn x.2)

/-- What a program writes that copies a page. -/
def fromPage (page : Styled) : List Chunk := page.map fun x => ([x.1], x.2)

end Stylish.Spec
