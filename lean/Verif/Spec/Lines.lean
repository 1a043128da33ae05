import Verif.Model.Basic
/-
Specification: lines, and the characters markup is made of.
-/

namespace Stylish.Spec

/-- Split at line feeds: one line more than there are line feeds. -/
def lines : Str → List Str
  | [] => [[]]
  | c :: cs =>
    if c = '\n' then [] :: lines cs
    else match lines cs with
      | [] => [[c]]
      | l :: ls => (c :: l) :: ls

/-- The characters ANSI style changes are made of: ESC, `[`, digits, `;` and `m`. -/
def ansiMark (c : Char) : Bool := c = '\x1b' || c = '[' || c.isDigit || c = ';' || c = 'm'

/-- Printable ASCII: the characters HTML markup is made of. -/
def printable (c : Char) : Bool := 0x20 ≤ c.toNat && c.toNat ≤ 0x7E

example : lines ['a', '\n', '\n', 'b'] = [['a'], [], ['b']] := by decide

end Stylish.Spec
