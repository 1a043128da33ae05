import Verif.Spec.Macro
/-
Specification: what std's own `format!` gives for a format string whose placeholders use std traits only.
Attributes, which std does not have, are ignored.
-/

namespace Stylish.Spec.Syntax

/-- The options std's formatter has for a specification (`std::fmt`): those written, fill a space. -/
def SpecSyn.stdOptions (s : SpecSyn) : StdOpts :=
  { fill := ' '
    align := s.align.map Prod.snd
    sign := s.sign
    alternate := s.alternate
    zero := s.zero
    width := s.width.bind CountSyn.literal
    precision := s.precision.bind PrecisionSyn.literal
    debugHex := s.ty.debugHex
    debug := s.ty = .debug ∨ s.ty = .lowerHexDebug ∨ s.ty = .upperHexDebug }

/-- The text a std formatting program writes, if it returns `Ok`. -/
def stdText (p : StdProg) : Option Str :=
  if (stdWrites p).2 = .ok () then some (stdWrites p).1.flatten else none

/-- The text of one piece. -/
def stdPiece (args : List (MacroArg ArgVal)) (scope : Str → ArgVal) (before : List PieceSyn) :
    PieceSyn → Option Str
  | .text s => some s
  | .openBrace => some ['{']
  | .closeBrace => some ['}']
  | .arg ref spec =>
    (valueFor args scope before ref).bind fun v =>
      stdText (v.std (specOf spec).ty.trait (specOf spec).stdOptions)

/-- The string; `none` when a formatting trait implementation returned an error (then `format!` panics) or
panicked. -/
def stdFormat (args : List (MacroArg ArgVal)) (scope : Str → ArgVal) (before : List PieceSyn) :
    List PieceSyn → Option Str
  | [] => some []
  | p :: rest =>
    (stdPiece args scope before p).bind fun s =>
      (stdFormat args scope (before ++ [p]) rest).map (s ++ ·)

/-- No placeholder uses the `s` trait. -/
def StdOnly (t : List PieceSyn) : Prop := ∀ ref spec, .arg ref spec ∈ t → (specOf spec).ty ≠ .stylish

/-- No placeholder has attributes. -/
def NoAttrs (t : List PieceSyn) : Prop := ∀ ref spec, .arg ref spec ∈ t → (specOf spec).attrs = none

/-- A value, or a panic. -/
def orPanic : Option Str → Res Empty Str
  | some s => .ok s
  | none => .panic

end Stylish.Spec.Syntax
