import Verif.Spec.Browser
/-
Specification: what a page of text and spans looks like, after CSS: style attributes are lists of declarations
(CSS Style Attributes, CSS Syntax 3), `color`, `background-color` and `font-weight` have computed values
(CSS Color 4, CSS Backgrounds 3, CSS Fonts 4), which depend on the surroundings of the span. Independent of the code
under verification: colours are red, green and blue, weights are numbers.

The named colours are a parameter. Not covered, and then nothing is said about the page (`none`): other properties,
values with quotes, escapes, comments, brackets or `!important`, colours with transparency, and colour
functions.
-/

namespace Stylish.Spec.Css

structure Rgb where
  red : Nat
  green : Nat
  blue : Nat
  deriving DecidableEq, Repr

/-- What is seen of a character apart from its shape: its colour, the colour behind it, and its weight, 1 to 1000. -/
structure Look where
  color : Rgb
  behind : Rgb
  weight : Nat
  deriving DecidableEq, Repr

/-! ### Values -/

inductive ColorValue where
  | rgb (c : Rgb)
  | inherit
  deriving DecidableEq, Repr

inductive WeightValue where
  | number (n : Nat)
  | bolder
  | lighter
  | inherit
  deriving DecidableEq, Repr

inductive Declaration where
  | color (v : ColorValue)
  | backgroundColor (v : ColorValue)
  | fontWeight (v : WeightValue)
  deriving DecidableEq, Repr

/-- The table of named colours (CSS Color 4, 6.1), small letters. -/
abbrev Colors := Str → Option Rgb

/-- What is assumed of the table. -/
structure Colors.Standard (colors : Colors) : Prop where
  black : colors (str "black") = some ⟨0, 0, 0⟩
  red : colors (str "red") = some ⟨255, 0, 0⟩
  green : colors (str "green") = some ⟨0, 128, 0⟩
  yellow : colors (str "yellow") = some ⟨255, 255, 0⟩
  blue : colors (str "blue") = some ⟨0, 0, 255⟩
  magenta : colors (str "magenta") = some ⟨255, 0, 255⟩
  cyan : colors (str "cyan") = some ⟨0, 255, 255⟩
  white : colors (str "white") = some ⟨255, 255, 255⟩
  gray : colors (str "gray") = some ⟨128, 128, 128⟩

/-- ASCII letters become small. -/
def lower (s : Str) : Str := s.map fun c => if Browser.isUpper c then Char.ofNat (c.toNat + 32) else c

/-- A number of hexadecimal digits. -/
def hexDigits (s : Str) : Option (List Nat) := s.mapM Browser.hexDigit

/-- `#rgb`, `#rrggbb`. -/
def hexColor (s : Str) : Option Rgb :=
  match hexDigits s with
  | some [r, g, b] => some ⟨17 * r, 17 * g, 17 * b⟩
  | some [r, r', g, g', b, b'] => some ⟨16 * r + r', 16 * g + g', 16 * b + b'⟩
  | _ => none

def colorValue (colors : Colors) (v : Str) : Option ColorValue :=
  if lower v = str "inherit" then some .inherit
  else match v with
    | '#' :: digits => (hexColor digits).map .rgb
    | _ => (colors (lower v)).map .rgb

def weightValue (v : Str) : Option WeightValue :=
  if lower v = str "normal" then some (.number 400)
  else if lower v = str "bold" then some (.number 700)
  else if lower v = str "bolder" then some .bolder
  else if lower v = str "lighter" then some .lighter
  else if lower v = str "inherit" then some .inherit
  else match v.mapM Browser.decDigit with
    | some ds =>
      let n := ds.foldl (fun n d => 10 * n + d) 0
      if 1 ≤ n ∧ n ≤ 1000 then some (.number n) else none
    | none => none

/-! ### Style attributes -/

/-- Split at a character. -/
def split (sep : Char) : Str → List Str
  | [] => [[]]
  | c :: cs =>
    if c = sep then [] :: split sep cs
    else match split sep cs with
      | [] => [[c]]
      | p :: ps => (c :: p) :: ps

/-- Without the white space at both ends. -/
def trim (s : Str) : Str := ((s.dropWhile Browser.isSpace).reverse.dropWhile Browser.isSpace).reverse

/-- Characters with a meaning in CSS that is not covered. -/
def special : List Char := ['"', '\'', '\\', '/', '(', ')', '[', ']', '{', '}', '!', '@']

/-- One declaration. -/
def declaration (colors : Colors) (d : Str) : Option Declaration :=
  match split ':' d with
  | [name, value] =>
    if lower (trim name) = str "color" then (colorValue colors (trim value)).map .color
    else if lower (trim name) = str "background-color" then (colorValue colors (trim value)).map .backgroundColor
    else if lower (trim name) = str "font-weight" then (weightValue (trim value)).map .fontWeight
    else none
  | _ => none

/-- A style attribute; empty declarations are allowed. -/
def declarations (colors : Colors) (v : Str) : Option (List Declaration) :=
  if v.any special.contains then none
  else (((split ';' v).map trim).filter (· ≠ [])).mapM (declaration colors)

/-! ### Computed values -/

def ColorValue.over (parent : Rgb) : ColorValue → Rgb
  | .rgb c => c
  | .inherit => parent

/-- CSS Fonts 4, 2.2.1. -/
def WeightValue.over (parent : Nat) : WeightValue → Nat
  | .number n => n
  | .inherit => parent
  | .bolder => if parent < 350 then 400 else if parent < 550 then 700 else if parent < 900 then 900 else parent
  | .lighter => if parent < 100 then parent else if parent < 550 then 100 else if parent < 750 then 400 else 700

/-- One declaration, in a span in a parent that looks like `parent`; the rest is as `look` says. -/
def apply (parent look : Look) : Declaration → Look
  | .color v => { look with color := v.over parent.color }
  | .backgroundColor v => { look with behind := v.over parent.behind }
  | .fontWeight v => { look with weight := v.over parent.weight }

/-- A span: colour and weight are inherited, and its background is transparent; the last declaration of a property
counts. -/
def span (colors : Colors) (parent : Look) (attrs : List (Str × Str)) : Option Look :=
  match attrs.lookup (str "style") with
  | some v => (declarations colors v).map fun ds => ds.foldl (apply parent) parent
  | none => some parent

/-! ### Pages -/

/-- The characters shown and what they look like, in the given open spans (innermost first) on a page that looks like
`base`. -/
def build (colors : Colors) (base : Look) : List Look → List Browser.Token → Option (List (Char × Look))
  | _, [] => some []
  | stack, .char c :: ts =>
    (build colors base stack ts).map fun r => if c = '\x00' then r else (c, stack.headD base) :: r
  | stack, .startTag name attrs _ :: ts =>
    if name = str "span" then
      (span colors (stack.headD base) attrs).bind fun look => build colors base (look :: stack) ts
    else none
  | stack, .endTag name :: ts => if name = str "span" then build colors base stack.tail ts else none
  | stack, .parseError :: ts => build colors base stack ts
  | _, .outside :: _ => none

/-- What a page looks like. -/
def looks (names : Browser.Names) (colors : Colors) (base : Look) (page : Str) : Option (List (Char × Look)) :=
  build colors base [] (Browser.tokenize names page)

/-! ### What a style should look like -/

/-- The colours of a terminal; `Default` is that of the page. -/
def rgb (page : Rgb) : Color → Rgb
  | .Default => page
  | .Black => ⟨0, 0, 0⟩
  | .Red => ⟨255, 0, 0⟩
  | .Green => ⟨0, 128, 0⟩
  | .Yellow => ⟨255, 255, 0⟩
  | .Blue => ⟨0, 0, 255⟩
  | .Magenta => ⟨255, 0, 255⟩
  | .Cyan => ⟨0, 255, 255⟩
  | .White => ⟨255, 255, 255⟩
  | .BrightBlack => ⟨128, 128, 128⟩
  | .BrightRed => ⟨175, 0, 0⟩
  | .BrightGreen => ⟨0, 255, 0⟩
  | .BrightYellow => ⟨255, 255, 0⟩
  | .BrightBlue => ⟨0, 0, 255⟩
  | .BrightMagenta => ⟨255, 0, 255⟩
  | .BrightCyan => ⟨0, 255, 255⟩
  | .BrightWhite => ⟨255, 255, 255⟩

/-- Bold and faint are one step bolder and lighter than the page. -/
def weight (page : Nat) : Intensity → Nat
  | .Normal => page
  | .Bold => WeightValue.bolder.over page
  | .Faint => WeightValue.lighter.over page

def lookOf (page : Look) (st : Style) : Look :=
  ⟨rgb page.color st.foreground, rgb page.behind st.background, weight page.weight st.intensity⟩

end Stylish.Spec.Css
