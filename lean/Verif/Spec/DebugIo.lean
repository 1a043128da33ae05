import Verif.Spec.DebugMore
/-
Specification for C119: the words that describe bytes, writers of bytes, and changes of a style.
-/

namespace Stylish.Spec.Debug

/-- A number for each byte. -/
def byteWords (b : Bytes) : List Str := b.map fun x => Nat.toDigits 10 x.toNat

/-- The words for a writer with these bytes below it, in this style. -/
def ansiWords (b : Bytes) (st : Style) : List Str :=
  [str "Ansi", str "inner"] ++ byteWords b ++ [str "current"] ++ styleWords st

def plainWords (b : Bytes) : List Str := [str "Plain", str "inner"] ++ byteWords b

/-- The words for a change of a style: each attribute, with `Some` if it is changed. -/
def diffWords (d : StyleDiff) : List Str :=
  [str "StyleDiff", str "foreground"] ++ optionWords colorName d.foreground ++ [str "background"] ++
    optionWords colorName d.background ++ [str "intensity"] ++ optionWords intensityName d.intensity

end Stylish.Spec.Debug
