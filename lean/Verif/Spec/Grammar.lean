import Verif.Model.Format
/-
Specification of the format string syntax, independent of the parser: syntax trees, how a tree is written
(`print`), which trees are well formed, and what a tree means.

The trees cover the documented grammar (README.md:95-103, extending the grammar of std::fmt):

  format_string := text [ '{' [ argument ] [ ':' format_spec ] '}' text ] *
  format_spec   := [[fill]align][sign]['#']['0'][width]['.' precision][attributes]type
  width         := count ;  precision := count | '*' ;  count := integer | argument '$'
  attributes    := '(' [attribute [',' attribute]* [',']] ')'

Numerals are kept as the digits written, so that a tree prints to exactly one string. The attribute keys and
values are those of macros/src/format.rs (README only says "identifier").
-/

namespace Stylish.Spec.Syntax

/-- The colours that can be named in a format string. -/
inductive ColorName where
  | black | red | green | yellow | blue | magenta | cyan | white | default
  deriving DecidableEq, Repr

def ColorName.print : ColorName → Str
  | .black => str "black"
  | .red => str "red"
  | .green => str "green"
  | .yellow => str "yellow"
  | .blue => str "blue"
  | .magenta => str "magenta"
  | .cyan => str "cyan"
  | .white => str "white"
  | .default => str "default"

def ColorName.color : ColorName → Color
  | .black => .Black
  | .red => .Red
  | .green => .Green
  | .yellow => .Yellow
  | .blue => .Blue
  | .magenta => .Magenta
  | .cyan => .Cyan
  | .white => .White
  | .default => .Default

/-- One attribute. -/
inductive Attr where
  | fg (c : ColorName)
  | bg (c : ColorName)
  | normal
  | bold
  | faint
  deriving DecidableEq, Repr

def Attr.print : Attr → Str
  | .fg c => str "fg=" ++ c.print
  | .bg c => str "bg=" ++ c.print
  | .normal => str "normal"
  | .bold => str "bold"
  | .faint => str "faint"

/-- The reference to an argument: by position (the digits) or by name. -/
inductive ArgRef where
  | index (digits : Str)
  | name (ident : Str)
  deriving DecidableEq, Repr

def ArgRef.print : ArgRef → Str
  | .index ds => ds
  | .name n => n

/-- A width or precision: a number or a parameter. -/
inductive CountSyn where
  | lit (digits : Str)
  | param (r : ArgRef)
  deriving DecidableEq, Repr

def CountSyn.print : CountSyn → Str
  | .lit ds => ds
  | .param r => r.print ++ ['$']

/-- `type`. -/
inductive Ty where
  | display | debug | lowerHexDebug | upperHexDebug | octal | lowerHex | upperHex | pointer | binary
  | lowerExp | upperExp | stylish
  deriving DecidableEq, Repr

def Ty.print : Ty → Str
  | .display => []
  | .debug => ['?']
  | .lowerHexDebug => ['x', '?']
  | .upperHexDebug => ['X', '?']
  | .octal => ['o']
  | .lowerHex => ['x']
  | .upperHex => ['X']
  | .pointer => ['p']
  | .binary => ['b']
  | .lowerExp => ['e']
  | .upperExp => ['E']
  | .stylish => ['s']

/-- `precision`. -/
inductive PrecisionSyn where
  | count (c : CountSyn)
  | star
  deriving DecidableEq, Repr

/-- `attributes`: the list, and whether there is a trailing comma. -/
structure AttrsSyn where
  attrs : List Attr
  trailingComma : Bool
  deriving DecidableEq, Repr

/-- `format_spec`. -/
structure SpecSyn where
  align : Option (Option Char × Align) := none
  sign : Option Sign := none
  alternate : Bool := false
  zero : Bool := false
  width : Option CountSyn := none
  precision : Option PrecisionSyn := none
  attrs : Option AttrsSyn := none
  ty : Ty := .display
  deriving DecidableEq, Repr

def printAlign : Align → Char
  | .Left => '<'
  | .Center => '^'
  | .Right => '>'

def printSign : Sign → Char
  | .Plus => '+'
  | .Minus => '-'

/-- The attributes with commas between them. -/
def printAttrs : List Attr → Str
  | [] => []
  | a :: as => a.print ++ as.flatMap (fun a => ',' :: a.print)

def AttrsSyn.print (a : AttrsSyn) : Str :=
  ['('] ++ printAttrs a.attrs ++ (if a.trailingComma then [','] else []) ++ [')']

def PrecisionSyn.print : PrecisionSyn → Str
  | .count c => '.' :: c.print
  | .star => ['.', '*']

/-- An optional part. -/
@[simp] def optStr {α : Type} (f : α → Str) : Option α → Str
  | none => []
  | some a => f a

def printFillAlign : Option Char × Align → Str
  | (none, a) => [printAlign a]
  | (some fill, a) => [fill, printAlign a]

def SpecSyn.print (s : SpecSyn) : Str :=
  optStr printFillAlign s.align ++
  optStr (fun sg => [printSign sg]) s.sign ++
  (if s.alternate then ['#'] else []) ++
  (if s.zero then ['0'] else []) ++
  optStr CountSyn.print s.width ++
  optStr PrecisionSyn.print s.precision ++
  optStr AttrsSyn.print s.attrs ++
  s.ty.print

/-- A piece of a format string: a run of ordinary text, `{{`, `}}`, or a placeholder. -/
inductive PieceSyn where
  | text (s : Str)
  | openBrace
  | closeBrace
  | arg (ref : Option ArgRef) (spec : Option SpecSyn)
  deriving DecidableEq, Repr

def PieceSyn.print : PieceSyn → Str
  | .text s => s
  | .openBrace => ['{', '{']
  | .closeBrace => ['}', '}']
  | .arg ref spec =>
    ['{'] ++ optStr ArgRef.print ref ++ optStr (fun s => ':' :: SpecSyn.print s) spec ++ ['}']

/-- The format string a tree is written as. -/
def print (t : List PieceSyn) : Str := t.flatMap PieceSyn.print

/-! ### Well-formed trees -/

/-- A numeral: one or more digits. -/
def Numeral (ds : Str) : Prop := ds ≠ [] ∧ ∀ d ∈ ds, d.isDigit = true

/-- An identifier: an XID_Start character or `_`, and XID_Continue characters. -/
def Ident (E : Env) (n : Str) : Prop :=
  ∃ c cs, n = c :: cs ∧ (E.xidStart c = true ∨ c = '_') ∧ ∀ d ∈ cs, E.xidContinue d = true

def ArgRef.Documented (E : Env) : ArgRef → Prop
  | .index ds => Numeral ds
  | .name n => Ident E n

def CountSyn.Documented (E : Env) : CountSyn → Prop
  | .lit ds => Numeral ds
  | .param r => r.Documented E

def PrecisionSyn.Documented (E : Env) : PrecisionSyn → Prop
  | .count c => c.Documented E
  | .star => True

/-- A trailing comma needs an attribute before it. -/
def AttrsSyn.Documented (a : AttrsSyn) : Prop := a.trailingComma = true → a.attrs ≠ []

/-- A width written as a number does not start with `0` (that would be the `0` flag). -/
def SpecSyn.Documented (E : Env) (s : SpecSyn) : Prop :=
  (∀ c, s.width = some c → c.Documented E) ∧
  (∀ ds, s.width = some (.lit ds) → s.zero = false → ds.head? ≠ some '0') ∧
  (∀ p, s.precision = some p → p.Documented E) ∧
  (∀ a, s.attrs = some a → a.Documented)

def PieceSyn.Documented (E : Env) : PieceSyn → Prop
  | .text s => s ≠ [] ∧ '{' ∉ s ∧ '}' ∉ s
  | .openBrace => True
  | .closeBrace => True
  | .arg ref spec => (∀ r, ref = some r → r.Documented E) ∧ (∀ s, spec = some s → s.Documented E)

def PieceSyn.isText : PieceSyn → Bool
  | .text _ => true
  | _ => false

/-- Consecutive text is one piece. -/
def Merged : List PieceSyn → Prop
  | p :: q :: rest => (p.isText = true → q.isText = false) ∧ Merged (q :: rest)
  | _ => True

/-- A tree of the documented grammar. -/
def Documented (E : Env) (t : List PieceSyn) : Prop := (∀ p ∈ t, p.Documented E) ∧ Merged t

/-! ### What the implementation supports -/

/-- The value of a numeral. -/
def numeralValue (ds : Str) : Nat := ds.foldl (fun n d => 10 * n + (d.toNat - 48)) 0

def ArgRef.Supported (E : Env) : ArgRef → Prop
  | .index ds => numeralValue ds ≤ E.usizeMax
  | .name _ => True

def CountSyn.Supported (E : Env) : CountSyn → Prop
  | .lit ds => numeralValue ds ≤ E.usizeMax
  | .param r => r.Supported E

/-- Numbers must fit `usize`; the only fill is a space; no `.*`; an attribute list must not be empty and must
not have a trailing comma; and `0$` must not be used as a width without the `0` flag. -/
def SpecSyn.Supported (E : Env) (s : SpecSyn) : Prop :=
  (∀ fill a, s.align = some (some fill, a) → fill = ' ') ∧
  (∀ c, s.width = some c → c.Supported E) ∧
  (∀ ds, s.width = some (.param (.index ds)) → s.zero = false → ds.head? ≠ some '0') ∧
  (∀ p, s.precision = some p → ∃ c, p = .count c ∧ c.Supported E) ∧
  (∀ a, s.attrs = some a → a.attrs ≠ [] ∧ a.trailingComma = false)

def PieceSyn.Supported (E : Env) : PieceSyn → Prop
  | .arg ref spec => (∀ r, ref = some r → r.Supported E) ∧ (∀ s, spec = some s → s.Supported E)
  | _ => True

/-- The placeholder ends in `:}`, i.e. has an empty specification after the colon. -/
def PieceSyn.emptySpec : PieceSyn → Bool
  | .arg _ (some s) => s.print.isEmpty
  | _ => false

/-- Does the text start with an alignment character? -/
def startsWithAlign (s : Str) : Bool :=
  match s.head? with
  | some c => c = '<' || c = '^' || c = '>'
  | none => false

/-- `{:}` must not be followed by `<`, `^` or `>`. -/
def NoFalseFill : List PieceSyn → Prop
  | p :: rest => (p.emptySpec = true → startsWithAlign (print rest) = false) ∧ NoFalseFill rest
  | [] => True

/-- The trees whose strings the macro's parser accepts. -/
def Supported (E : Env) (t : List PieceSyn) : Prop := (∀ p ∈ t, p.Supported E) ∧ NoFalseFill t

/-! ### The meaning of a tree as the parser's output -/

open Format

def ArgRef.toRef : ArgRef → FormatArgRef
  | .index ds => .Positional (numeralValue ds)
  | .name n => .Named n

def CountSyn.toCount : CountSyn → Count
  | .lit ds => .Integer (numeralValue ds)
  | .param r => .Parameter r.toRef

def PrecisionSyn.toCount : PrecisionSyn → Option Count
  | .count c => some c.toCount
  | .star => none

def Ty.trait : Ty → FormatTrait
  | .display => .Display
  | .debug => .Debug
  | .lowerHexDebug => .Debug
  | .upperHexDebug => .Debug
  | .octal => .Octal
  | .lowerHex => .LowerHex
  | .upperHex => .UpperHex
  | .pointer => .Pointer
  | .binary => .Binary
  | .lowerExp => .LowerExp
  | .upperExp => .UpperExp
  | .stylish => .Stylish

def Ty.debugHex : Ty → Option DebugHex
  | .lowerHexDebug => some .Lower
  | .upperHexDebug => some .Upper
  | _ => none

def Attr.fg? : Attr → Option Color
  | .fg c => some c.color
  | _ => none

def Attr.bg? : Attr → Option Color
  | .bg c => some c.color
  | _ => none

def Attr.intensity? : Attr → Option Intensity
  | .normal => some .Normal
  | .bold => some .Bold
  | .faint => some .Faint
  | _ => none

/-- What the implementation makes of an attribute list: the last setting of each attribute, except that a
last setting of `default`/`normal` is dropped. -/
def attrsDiff (as : List Attr) : StyleDiff :=
  { foreground := ((as.filterMap Attr.fg?).getLast?).filter (fun c => c ≠ .Default)
    background := ((as.filterMap Attr.bg?).getLast?).filter (fun c => c ≠ .Default)
    intensity := ((as.filterMap Attr.intensity?).getLast?).filter (fun i => i ≠ .Normal) }

def SpecSyn.toSpec (s : SpecSyn) : FormatSpec :=
  { formatterArgs :=
      { align := s.align.map Prod.snd
        sign := s.sign
        alternate := s.alternate
        zero := s.zero
        width := s.width.map CountSyn.toCount
        precision := s.precision.bind PrecisionSyn.toCount
        debugHex := s.ty.debugHex }
    style := match s.attrs with
      | none => ⟨none, none, none⟩
      | some a => attrsDiff a.attrs
    formatTrait := s.ty.trait }

def PieceSyn.toPiece : PieceSyn → Piece
  | .text s => .Lit s
  | .openBrace => .Lit ['{']
  | .closeBrace => .Lit ['}']
  | .arg ref spec => .Arg
    { arg := ref.map ArgRef.toRef
      formatSpec := match spec with
        | none =>
          { formatterArgs :=
              { align := none, sign := none, alternate := false, zero := false, width := none,
                precision := none, debugHex := none }
            style := { foreground := none, background := none, intensity := none }
            formatTrait := .Display }
        | some s => s.toSpec }

/-! ### The environment -/

/-- What is used of the Unicode identifier classes: on ASCII, XID_Start is the letters and XID_Continue is
the letters, digits and `_`. -/
structure _root_.Stylish.Env.Lawful (E : Env) : Prop where
  start_ascii : ∀ c : Char, c.toNat < 128 → E.xidStart c = c.isAlpha
  continue_ascii : ∀ c : Char, c.toNat < 128 → E.xidContinue c = (c.isAlphanum || c == '_')

/-- An environment with ASCII identifiers on a 64-bit target. -/
def asciiEnv : Env := ⟨Char.isAlpha, fun c => c.isAlphanum || c == '_', 2 ^ 64 - 1⟩

theorem asciiEnv_lawful : asciiEnv.Lawful := ⟨fun _ _ => rfl, fun _ _ => rfl⟩

end Stylish.Spec.Syntax
