import Verif.Spec.Vt
/-
Specification: a video terminal that knows only some of the parameters of SGR and skips the others, as terminals do with
8 colours, with none, or without faint text (C111). Otherwise it is the terminal of Spec/Vt.lean.

Simplification: the parameters that belong to a `38;5;n` or `38;2;r;g;b` count as parameters of their own, known or not.
-/

namespace Stylish.Spec.Vt

/-- A parameter that is skipped: a number that is not known. -/
def skipped (known : Nat → Bool) (item : Str) : Bool :=
  match (splitAt ':' item).map paramVal with
  | [n] => !known n
  | _ => false

/-- `CSI params m`, where only some parameters are known. -/
def sgrPartly (known : Nat → Bool) (kind : TermKind) (params : Str) (p : Pen) : Pen :=
  (((splitAt ';' params).filter fun item => !skipped known item).foldl
    (fun s item => param kind s ((splitAt ':' item).map paramVal)) (.none, p)).2

/-- Receive one character. -/
def Screen.stepPartly (known : Nat → Bool) (kind : Kind) (s : Screen) (c : Char) : Screen :=
  match s.state with
  | .csi [] params [] =>
    if c = 'm' then { s with state := .ground, pen := sgrPartly known kind.boldFaint params s.pen } else s.step kind c
  | _ => s.step kind c

/-- Receive a text. -/
def Screen.feedPartly (known : Nat → Bool) (kind : Kind) (s : Screen) (text : Str) : Screen :=
  text.foldl (Screen.stepPartly known kind) s

/-- The parameter for a foreground colour (ECMA-48 and aixterm). -/
def colorCode : Color → Nat
  | .Default => 39
  | .Black => 30 | .Red => 31 | .Green => 32 | .Yellow => 33 | .Blue => 34 | .Magenta => 35 | .Cyan => 36 | .White => 37
  | .BrightBlack => 90 | .BrightRed => 91 | .BrightGreen => 92 | .BrightYellow => 93
  | .BrightBlue => 94 | .BrightMagenta => 95 | .BrightCyan => 96 | .BrightWhite => 97

/-- The parameters for bold, faint and normal intensity are known. -/
def knowsIntensity (known : Nat → Bool) : Prop := known 1 = true ∧ known 2 = true ∧ known 22 = true

/-- What becomes of a character on such a terminal: in the default style it is shown plain. Otherwise the foreground is right if
its parameter is known, the background is right if its parameter (ten more) is known, the intensity is right if `intensity`, and
nothing else happens. -/
def PartlyRight (known : Nat → Bool) (intensity : Prop) (x : Char × Style) (e : Event) : Prop :=
  if isControl x.1 then e = .execute x.1
  else ∃ p, e = .print x.1 p ∧ (x.2 = Style.default → p = Pen.plain) ∧
    (known (colorCode x.2.foreground) = true → p.fg = ink x.2.foreground) ∧
    (known (colorCode x.2.background + 10) = true → p.bg = ink x.2.background) ∧
    (intensity → (p.bold = true ↔ x.2.intensity = .Bold) ∧ (p.faint = true ↔ x.2.intensity = .Faint)) ∧
    p = { Pen.plain with fg := p.fg, bg := p.bg, bold := p.bold, faint := p.faint }

/-- One to one, in order. -/
def OneToOne {α β : Type} (P : α → β → Prop) : List α → List β → Prop
  | [], [] => True
  | x :: xs, y :: ys => P x y ∧ OneToOne P xs ys
  | _, _ => False

/-- A terminal with eight colours: "bright red" is skipped, and what was before remains. -/
example : (Screen.fresh.feedPartly (· < 90) ⟨.exclusive, false⟩ (str "\x1b[32ma\x1b[91;1mb\x1b[0mc")).events =
    [.print 'a' { Pen.plain with fg := .indexed 2 }, .print 'b' { Pen.plain with fg := .indexed 2, bold := true },
     .print 'c' Pen.plain] := by decide +kernel

end Stylish.Spec.Vt
