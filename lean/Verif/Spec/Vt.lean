import Verif.Spec.Terminal
import Verif.Spec.Text
/-
Specification: a video terminal that reads any text whatsoever, after the parser of the DEC VT500 series
(P. Williams, "A parser for DEC's ANSI-compatible video terminals") with the usual additions of today's terminal
emulators: UTF-8 text, colon-separated subparameters, BEL at the end of OSC strings, and all of SGR (ECMA-48
8.3.117, ITU T.416 colours, the bright colours of aixterm). Written from these, independent of the code under
verification.

Simplifications: the strings of DCS, OSC, SOS, PM and APC are skipped, whatever their form, up to their end; a
control sequence other than SGR and an escape sequence are reported as such and have no effect on the graphic
rendition (so this is a terminal that is not reset or switched to other rendition modes by other means).
-/

namespace Stylish.Spec.Vt

/-- The colours a terminal knows: its own default, 256 colours by number (the first 16 of which are those of
30-37 and 90-97), or red, green and blue. -/
inductive Ink where
  | default
  | indexed (n : Nat)
  | rgb (r g b : Nat)
  deriving DecidableEq, Repr

/-- The graphic rendition: how the next characters are shown. -/
structure Pen where
  fg : Ink
  bg : Ink
  bold : Bool
  faint : Bool
  italic : Bool
  underline : Bool
  blink : Bool
  inverse : Bool
  hidden : Bool
  strike : Bool
  deriving DecidableEq, Repr

/-- After power-up or reset. -/
def Pen.plain : Pen := ⟨.default, .default, false, false, false, false, false, false, false, false⟩

/-- How terminals differ: whether bold and faint exclude each other, and whether the characters U+0080 to U+009F
are control functions. -/
structure Kind where
  boldFaint : TermKind
  c1 : Bool
  deriving DecidableEq, Repr

/-! ### SGR -/

/-- In the middle of `38;5;n` or `38;2;r;g;b`. -/
inductive Pending where
  | none
  | which (background : Bool)
  | index (background : Bool)
  | rgb (background : Bool) (soFar : List Nat)
  deriving DecidableEq, Repr

def Pen.setInk (p : Pen) (background : Bool) (i : Ink) : Pen :=
  if background then { p with bg := i } else { p with fg := i }

/-- One simple parameter. -/
def simple (kind : TermKind) (n : Nat) (p : Pen) : Pen :=
  if n = 0 then .plain
  else if n = 1 then { p with bold := true, faint := if kind = .exclusive then false else p.faint }
  else if n = 2 then { p with faint := true, bold := if kind = .exclusive then false else p.bold }
  else if n = 3 then { p with italic := true }
  else if n = 4 ∨ n = 21 then { p with underline := true }
  else if n = 5 ∨ n = 6 then { p with blink := true }
  else if n = 7 then { p with inverse := true }
  else if n = 8 then { p with hidden := true }
  else if n = 9 then { p with strike := true }
  else if n = 22 then { p with bold := false, faint := false }
  else if n = 23 then { p with italic := false }
  else if n = 24 then { p with underline := false }
  else if n = 25 then { p with blink := false }
  else if n = 27 then { p with inverse := false }
  else if n = 28 then { p with hidden := false }
  else if n = 29 then { p with strike := false }
  else if 30 ≤ n ∧ n ≤ 37 then { p with fg := .indexed (n - 30) }
  else if n = 39 then { p with fg := .default }
  else if 40 ≤ n ∧ n ≤ 47 then { p with bg := .indexed (n - 40) }
  else if n = 49 then { p with bg := .default }
  else if 90 ≤ n ∧ n ≤ 97 then { p with fg := .indexed (n - 90 + 8) }
  else if 100 ≤ n ∧ n ≤ 107 then { p with bg := .indexed (n - 100 + 8) }
  else p

/-- A parameter with subparameters (`38:5:n`, `38:2::r:g:b`, `38:2:r:g:b`, `4:n`). -/
def withSubs (n : Nat) (subs : List Nat) (p : Pen) : Pen :=
  if n = 38 ∨ n = 48 then
    match subs with
    | [5, i] => p.setInk (n = 48) (.indexed i)
    | [2, r, g, b] => p.setInk (n = 48) (.rgb r g b)
    | [2, _, r, g, b] => p.setInk (n = 48) (.rgb r g b)
    | _ => p
  else if n = 4 then { p with underline := subs ≠ [0] }
  else p

/-- One parameter, in the middle of another or not. -/
def param (kind : TermKind) (s : Pending × Pen) (item : List Nat) : Pending × Pen :=
  let (pending, p) := s
  match pending with
  | .none =>
    match item with
    | [] => (.none, simple kind 0 p)
    | [n] => if n = 38 ∨ n = 48 then (.which (n = 48), p) else (.none, simple kind n p)
    | n :: subs => (.none, withSubs n subs p)
  | .which b =>
    match item with
    | [5] => (.index b, p)
    | [2] => (.rgb b [], p)
    | _ => (.none, p)
  | .index b => (.none, p.setInk b (.indexed (item.headD 0)))
  | .rgb b [r, g] => (.none, p.setInk b (.rgb r g (item.headD 0)))
  | .rgb b soFar => (.rgb b (soFar ++ [item.headD 0]), p)

/-- Split at a character. -/
def splitAt (sep : Char) : Str → List Str
  | [] => [[]]
  | c :: cs =>
    if c = sep then [] :: splitAt sep cs
    else match splitAt sep cs with
      | [] => [[c]]
      | p :: ps => (c :: p) :: ps

/-- `CSI params m`. -/
def sgr (kind : TermKind) (params : Str) (p : Pen) : Pen :=
  ((splitAt ';' params).foldl (fun s item => param kind s ((splitAt ':' item).map paramVal)) (.none, p)).2

/-! ### The parser -/

/-- What happens on the terminal. -/
inductive Event where
  /-- a character is shown -/
  | print (c : Char) (p : Pen)
  /-- a control character is acted on (or ignored) -/
  | execute (c : Char)
  /-- an escape sequence other than those that begin something longer -/
  | esc (intermediates : Str) (final : Char)
  /-- a control sequence other than SGR -/
  | csi (mark params intermediates : Str) (final : Char)
  deriving DecidableEq, Repr

inductive State where
  | ground
  | escape (intermediates : Str)
  | csi (mark params intermediates : Str)
  | csiIgnore
  /-- in the string of an OSC (which may end with BEL), or of a DCS, SOS, PM or APC -/
  | string (osc : Bool)
  deriving DecidableEq, Repr

structure Screen where
  state : State
  pen : Pen
  events : List Event
  deriving DecidableEq, Repr

/-- After power-up. -/
def Screen.fresh : Screen := ⟨.ground, .plain, []⟩

def Screen.report (s : Screen) (e : Event) (next : State) : Screen := { s with state := next, events := s.events ++ [e] }
def Screen.goto (s : Screen) (next : State) : Screen := { s with state := next }

/-- C0, DEL, C1. -/
def isControl (c : Char) : Bool := c.toNat < 0x20 || (0x7F ≤ c.toNat && c.toNat < 0xA0)

/-- Control characters that begin or end something longer: ESC, and of the C1 set DCS, SOS, CSI, ST, OSC, PM, APC. -/
def introducers : List Char := ['\x1b', '\u0090', '\u0098', '\u009b', '\u009c', '\u009d', '\u009e', '\u009f']

/-- A final character of an escape sequence: the 7-bit forms of the above, or a sequence of its own. -/
def Screen.escFinal (s : Screen) (intermediates : Str) (c : Char) : Screen :=
  if intermediates = [] ∧ c = '[' then s.goto (.csi [] [] [])
  else if intermediates = [] ∧ c = ']' then s.goto (.string true)
  else if intermediates = [] ∧ (c = 'P' ∨ c = 'X' ∨ c = '^' ∨ c = '_') then s.goto (.string false)
  else s.report (.esc intermediates c) .ground

/-- A C1 character. -/
def Screen.c1Char (s : Screen) (c : Char) : Screen :=
  if c = '\u009b' then s.goto (.csi [] [] [])
  else if c = '\u009c' then s.goto .ground
  else if c = '\u009d' then s.goto (.string true)
  else if c = '\u0090' ∨ c = '\u0098' ∨ c = '\u009e' ∨ c = '\u009f' then s.goto (.string false)
  else s.report (.execute c) .ground

/-- The final character of a control sequence. -/
def Screen.csiFinal (kind : Kind) (s : Screen) (mark params intermediates : Str) (c : Char) : Screen :=
  if mark = [] ∧ intermediates = [] ∧ c = 'm' then { s with state := .ground, pen := sgr kind.boldFaint params s.pen }
  else s.report (.csi mark params intermediates c) .ground

/-- A character that is not a control character, in a control sequence. -/
def Screen.csiChar (kind : Kind) (s : Screen) (mark params intermediates : Str) (c : Char) : Screen :=
  if c.toNat < 0x30 then s.goto (.csi mark params (intermediates ++ [c]))
  else if c.toNat < 0x3C then
    if intermediates = [] then s.goto (.csi mark (params ++ [c]) []) else s.goto .csiIgnore
  else if c.toNat < 0x40 then
    if mark = [] ∧ params = [] ∧ intermediates = [] then s.goto (.csi [c] [] []) else s.goto .csiIgnore
  else if c.toNat < 0x7F then s.csiFinal kind mark params intermediates c
  else s.goto .ground

/-- Receive one character. -/
def Screen.step (kind : Kind) (s : Screen) (c : Char) : Screen :=
  if c = '\x1b' then s.goto (.escape [])
  else if c = '\x18' ∨ c = '\x1a' then s.report (.execute c) .ground
  else if kind.c1 ∧ 0x80 ≤ c.toNat ∧ c.toNat < 0xA0 then s.c1Char c
  else match s.state with
  | .ground => if isControl c then s.report (.execute c) .ground else s.report (.print c s.pen) .ground
  | .string osc => if osc ∧ c = '\x07' then s.goto .ground else s
  | .escape intermediates =>
    if isControl c then (if c.toNat < 0x20 then s.report (.execute c) s.state else s)
    else if c.toNat < 0x30 then s.goto (.escape (intermediates ++ [c]))
    else if c.toNat < 0x7F then s.escFinal intermediates c
    else s.goto .ground
  | .csi mark params intermediates =>
    if isControl c then (if c.toNat < 0x20 then s.report (.execute c) s.state else s)
    else s.csiChar kind mark params intermediates c
  | .csiIgnore =>
    if isControl c then (if c.toNat < 0x20 then s.report (.execute c) s.state else s)
    else if 0x40 ≤ c.toNat ∧ c.toNat < 0x7F then s.goto .ground
    else s

/-- Receive a text. -/
def Screen.feed (kind : Kind) (s : Screen) (text : Str) : Screen := text.foldl (Screen.step kind) s

/-- The characters shown or acted on, in order. -/
def chars (es : List Event) : Str :=
  es.filterMap fun e => match e with
    | .print c _ => some c
    | .execute c => some c
    | _ => none

/-! ### What a text should look like -/

/-- The ink for a colour. -/
def ink : Color → Ink
  | .Default => .default
  | .Black => .indexed 0
  | .Red => .indexed 1
  | .Green => .indexed 2
  | .Yellow => .indexed 3
  | .Blue => .indexed 4
  | .Magenta => .indexed 5
  | .Cyan => .indexed 6
  | .White => .indexed 7
  | .BrightBlack => .indexed 8
  | .BrightRed => .indexed 9
  | .BrightGreen => .indexed 10
  | .BrightYellow => .indexed 11
  | .BrightBlue => .indexed 12
  | .BrightMagenta => .indexed 13
  | .BrightCyan => .indexed 14
  | .BrightWhite => .indexed 15

/-- The pen for a style. -/
def Pen.ofStyle (st : Style) : Pen :=
  { Pen.plain with fg := ink st.foreground, bg := ink st.background, bold := st.intensity = .Bold,
                   faint := st.intensity = .Faint }

/-- What should happen for a character in a style: it is shown in the pen of the style, or acted on if it is a
control character. -/
def expected (x : Char × Style) : Event := if isControl x.1 then .execute x.1 else .print x.1 (.ofStyle x.2)

/-- The characters that are not text on a terminal of this kind but begin or end something longer. -/
def acts (kind : Kind) : List Char := if kind.c1 then introducers else ['\x1b']

/-- The characters at the end, back to the last one in normal intensity. -/
def sinceNormal (t : Styled) : Styled := t.reverse.takeWhile fun x => x.2.intensity ≠ .Normal

/-- Some character is to be shown in bold after one in faint without one in normal intensity in between, or the other
way round. -/
def Muddled (t : Styled) : Prop :=
  ∃ pre c st post, t = pre ++ (c, st) :: post ∧ isControl c = false ∧ st.intensity ≠ .Normal ∧
    ∃ x ∈ sinceNormal pre, x.2.intensity ≠ st.intensity

end Stylish.Spec.Vt
