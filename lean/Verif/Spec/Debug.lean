import Verif.Model.Formatter
/-
Specification for C79: the words of a text, and the words that describe a style and options.
-/

namespace Stylish.Spec.Debug

/-- A character of a name or number. -/
def isWord (c : Char) : Bool := c.isAlphanum || c == '_'

/-- The word read so far. -/
def flush (acc : Str) : List Str := if acc = [] then [] else [acc]

/-- The words of a text. -/
def wordsFrom (acc : Str) : Str → List Str
  | [] => flush acc
  | c :: cs => if isWord c then wordsFrom (acc ++ [c]) cs else flush acc ++ wordsFrom [] cs


def colorName : Color → Str
  | .Black => str "Black" | .Red => str "Red" | .Green => str "Green" | .Yellow => str "Yellow"
  | .Blue => str "Blue" | .Magenta => str "Magenta" | .Cyan => str "Cyan" | .White => str "White"
  | .BrightBlack => str "BrightBlack" | .BrightRed => str "BrightRed" | .BrightGreen => str "BrightGreen"
  | .BrightYellow => str "BrightYellow" | .BrightBlue => str "BrightBlue" | .BrightMagenta => str "BrightMagenta"
  | .BrightCyan => str "BrightCyan" | .BrightWhite => str "BrightWhite" | .Default => str "Default"

def intensityName : Intensity → Str
  | .Normal => str "Normal" | .Bold => str "Bold" | .Faint => str "Faint"

def alignName : Align → Str
  | .Left => str "Left" | .Center => str "Center" | .Right => str "Right"

def signName : Sign → Str
  | .Plus => str "Plus" | .Minus => str "Minus"

def hexName : DebugHex → Str
  | .Lower => str "Lower" | .Upper => str "Upper"

def boolName (b : Bool) : Str := if b then str "true" else str "false"

/-- `None`, or `Some` and the word for the value. -/
def optionWords {A : Type} (name : A → Str) : Option A → List Str
  | none => [str "None"]
  | some a => [str "Some", name a]

/-- Each field by its name and its value. -/
def described (st : Style) (a : FormatterArgs) : List Str :=
  [str "Formatter", str "style", str "Style", str "foreground", colorName st.foreground, str "background",
    colorName st.background, str "intensity", intensityName st.intensity, str "format", str "FormatterArgs", str "align"] ++
  optionWords alignName a.align ++ [str "sign"] ++ optionWords signName a.sign ++
  [str "alternate", boolName a.alternate, str "zero", boolName a.zero, str "width"] ++
  optionWords (Nat.toDigits 10) a.width ++ [str "precision"] ++ optionWords (Nat.toDigits 10) a.precision ++
  [str "debug_hex"] ++ optionWords hexName a.debugHex

/-- Reading a text with brackets line by line: how many brackets are open, and, at the start of a line, the number of spaces
seen so far. -/
structure Layout where
  start : Option Nat
  depth : Nat
  deriving DecidableEq

/-- A character inside a line: brackets are opened, and closed if there is one to close; after a newline a new line starts. -/
def Layout.inLine (depth : Nat) (c : Char) : Option Layout :=
  if c = '(' ∨ c = '{' then some ⟨none, depth + 1⟩
  else if c = ')' ∨ c = '}' then (match depth with | 0 => none | d + 1 => some ⟨none, d⟩)
  else if c = '\n' then some ⟨some 0, depth⟩
  else some ⟨none, depth⟩

/-- The first character of a line that is no space has to be indented by four spaces for every bracket open, not counting the
one it closes. -/
def Layout.step : Layout → Char → Option Layout
  | ⟨some n, d⟩, c =>
    if c = ' ' then some ⟨some (n + 1), d⟩
    else if c = ')' ∨ c = '}' then (if n + 4 = 4 * d then Layout.inLine d c else none)
    else (if n = 4 * d then Layout.inLine d c else none)
  | ⟨none, d⟩, c => Layout.inLine d c

def Layout.run (l : Layout) : Str → Option Layout
  | [] => some l
  | c :: cs => (match l.step c with | none => none | some l' => Layout.run l' cs)

/-- Every line is indented by the brackets open, and in the end all are closed. -/
def indented (s : Str) : Prop := Layout.run ⟨some 0, 0⟩ s = some ⟨none, 0⟩

instance (s : Str) : Decidable (indented s) := inferInstanceAs (Decidable (_ = _))

/-- A line ends after an opening bracket or a comma and only there, and a closing bracket is the first of its line (but for
spaces): for two characters next to each other. -/
def Broken (a b : Char) : Prop :=
  ((a = '(' ∨ a = '{' ∨ a = ',') ↔ b = '\n') ∧ (b = ')' ∨ b = '}' → a = ' ' ∨ a = '\n')

instance (a b : Char) : Decidable (Broken a b) := inferInstanceAs (Decidable (_ ∧ _))

/-- Every field is on its own line. -/
def broken (before : Char) : Str → Prop
  | [] => True
  | c :: cs => Broken before c ∧ broken c cs

instance decBroken (before : Char) : (s : Str) → Decidable (broken before s)
  | [] => isTrue trivial
  | c :: cs => have := decBroken c cs; inferInstanceAs (Decidable (_ ∧ _))

/-- A text without spaces, line breaks and commas. -/
def bare (s : Str) : Str := s.filter fun c => !(c = ' ' || c = '\n' || c = ',')

end Stylish.Spec.Debug
