import Verif.Model.Style
/-
Specification: a terminal that interprets SGR ("Select Graphic Rendition") escape sequences
(ECMA-48 / ISO 6429, with the usual 90-97/100-107 extension). Written from the standard, independent of
the code under verification.
-/

namespace Stylish.Spec

/-- The attributes a terminal keeps for the text it shows. Bold and faint are two flags. -/
structure Attrs where
  fg : Color
  bg : Color
  bold : Bool
  faint : Bool
  deriving DecidableEq, Repr

/-- The attributes of a terminal after power-up or reset. -/
def Attrs.initial : Attrs := ⟨.Default, .Default, false, false⟩

/-- How a style should look. -/
def Attrs.ofStyle (st : Style) : Attrs :=
  ⟨st.foreground, st.background, st.intensity = .Bold, st.intensity = .Faint⟩

/-- Terminals differ in whether bold and faint exclude each other. -/
inductive TermKind where
  | exclusive    -- setting one clears the other
  | independent  -- both flags can be set (e.g. xterm, VTE)
  deriving DecidableEq, Repr

/-- The eight standard colours, by number. -/
def basicColor : Nat → Color
  | 0 => .Black | 1 => .Red | 2 => .Green | 3 => .Yellow
  | 4 => .Blue | 5 => .Magenta | 6 => .Cyan | _ => .White

/-- The eight bright colours, by number. -/
def brightColor : Nat → Color
  | 0 => .BrightBlack | 1 => .BrightRed | 2 => .BrightGreen | 3 => .BrightYellow
  | 4 => .BrightBlue | 5 => .BrightMagenta | 6 => .BrightCyan | _ => .BrightWhite

/-- The effect of one SGR parameter; unknown parameters are ignored. -/
def sgrCode (kind : TermKind) (n : Nat) (a : Attrs) : Attrs :=
  if n = 0 then .initial
  else if n = 1 then { a with bold := true, faint := if kind = .exclusive then false else a.faint }
  else if n = 2 then { a with faint := true, bold := if kind = .exclusive then false else a.bold }
  else if n = 22 then { a with bold := false, faint := false }
  else if 30 ≤ n ∧ n ≤ 37 then { a with fg := basicColor (n - 30) }
  else if n = 39 then { a with fg := .Default }
  else if 40 ≤ n ∧ n ≤ 47 then { a with bg := basicColor (n - 40) }
  else if n = 49 then { a with bg := .Default }
  else if 90 ≤ n ∧ n ≤ 97 then { a with fg := brightColor (n - 90) }
  else if 100 ≤ n ∧ n ≤ 107 then { a with bg := brightColor (n - 100) }
  else a

/-- The value of a parameter; an empty one is 0. -/
def paramVal (p : Str) : Nat := p.foldl (fun n d => 10 * n + (d.toNat - 48)) 0

/-- Split the parameter string at semicolons. -/
def splitParams : Str → List Str
  | [] => [[]]
  | c :: cs =>
    if c = ';' then [] :: splitParams cs
    else match splitParams cs with
      | [] => [[c]]
      | p :: ps => (c :: p) :: ps

/-- Execute `CSI params m`: each parameter in order. -/
def sgr (kind : TermKind) (params : Str) (a : Attrs) : Attrs :=
  (splitParams params).foldl (fun a p => sgrCode kind (paramVal p) a) a

/-- The state of the terminal's input parser. -/
inductive Mode where
  | ground
  | escape                -- after ESC
  | csi (params : Str)    -- after ESC [
  deriving DecidableEq, Repr

/-- A terminal: parser state, current attributes, and the characters shown so far with their
attributes. -/
structure Terminal where
  mode : Mode
  attrs : Attrs
  screen : List (Char × Attrs)
  deriving DecidableEq, Repr

/-- A fresh terminal. -/
def Terminal.fresh : Terminal := ⟨.ground, .initial, []⟩

/-- The escape character. -/
def ESC : Char := '\x1b'

/-- Receive one character. -/
def Terminal.step (kind : TermKind) (t : Terminal) (c : Char) : Terminal :=
  match t.mode with
  | .ground =>
    if c = ESC then { t with mode := .escape } else { t with screen := t.screen ++ [(c, t.attrs)] }
  | .escape =>
    if c = ESC then t
    else if c = '[' then { t with mode := .csi [] }
    else { t with mode := .ground }
  | .csi params =>
    if c = ESC then { t with mode := .escape }
    else if c.isDigit ∨ c = ';' then { t with mode := .csi (params ++ [c]) }
    else if c = 'm' then { t with mode := .ground, attrs := sgr kind params t.attrs }
    else if 0x40 ≤ c.toNat ∧ c.toNat ≤ 0x7E then { t with mode := .ground }
    else t

/-- Receive a string. -/
def Terminal.feed (kind : TermKind) (t : Terminal) (s : Str) : Terminal :=
  s.foldl (Terminal.step kind) t

/-- The character with the code of the byte: a terminal that reads single bytes acts on it. -/
def byteChar (b : UInt8) : Char := Char.ofNat b.toNat

/-- Receive bytes. Bytes from 0x80 on, the parts of longer UTF-8 sequences, are shown one by one. -/
def Terminal.feedBytes (kind : TermKind) (t : Terminal) (s : Bytes) : Terminal :=
  t.feed kind (s.map byteChar)

/-- Remove escape sequences: everything from an ESC to the next `m`. -/
def stripSgr : Str → Str := go false
where
  go : Bool → Str → Str
  | _, [] => []
  | false, c :: cs => if c = ESC then go true cs else c :: go false cs
  | true, c :: cs => if c = 'm' then go false cs else go true cs

end Stylish.Spec
