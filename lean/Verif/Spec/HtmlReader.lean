import Verif.Spec.Text
/-
Specification: a strict reader of the HTML fragment language a page author would embed: text, character
references, and `<span style=value>` / `</span>` tags with unquoted attribute values. Anything else is
rejected (`none`), so "the reader accepts" also means that nothing else is in the output. Written from the
HTML standard (tokenisation, 13.2.5) and CSS (declarations, inheritance), independent of the code under
verification.

Not covered: the input stream preprocessing of browsers (CR is normalised to LF, NUL is replaced), and
white space collapsing when the page is laid out.
-/

namespace Stylish.Spec.HtmlReader

/-- What an HTML tokenizer produces. -/
inductive Token where
  | open (value : Str)   -- `<span style=value>`
  | close                -- `</span>`
  | char (c : Char)      -- one character of text, decoded
  deriving DecidableEq, Repr

/-- Characters an unquoted attribute value must not contain (13.1.2.3): white space, quotes, `=`, `<`, `>`,
backtick; and `&` and NUL, which would be read as something else. -/
def illegalInValue : List Char := [' ', '\t', '\n', '\x0c', '\r', '"', '\'', '=', '<', '>', '`', '&', '\x00']

/-- A legal unquoted attribute value. -/
def legalValue (v : Str) : Bool := !v.isEmpty && v.all (fun c => !illegalInValue.contains c)

/-- The five character references the reader knows. -/
def charRef (name : Str) : Option Char :=
  if name = str "lt" then some '<'
  else if name = str "gt" then some '>'
  else if name = str "amp" then some '&'
  else if name = str "quot" then some '"'
  else if name = str "#x27" then some '\''
  else none

/-- Remove a prefix. -/
def after : Str → Str → Option Str
  | [], s => some s
  | _ :: _, [] => none
  | p :: ps, c :: cs => if p = c then after ps cs else none

/-- The tag whose text between `<` and `>` is given. -/
def tag (s : Str) : Option Token :=
  if s = str "/span" then some .close
  else (after (str "span style=") s).bind fun v => if legalValue v then some (.open v) else none

/-- Where the tokenizer is. -/
inductive Mode where
  | data
  | tag (soFar : Str)
  | ref (soFar : Str)
  deriving DecidableEq, Repr

/-- Tokenize; `none` for anything outside the fragment language, including an unfinished tag or
reference. -/
def lex : Mode → Str → Option (List Token)
  | .data, [] => some []
  | .tag _, [] => none
  | .ref _, [] => none
  | .data, c :: cs =>
    if c = '<' then lex (.tag []) cs
    else if c = '&' then lex (.ref []) cs
    else (lex .data cs).map (.char c :: ·)
  | .tag acc, c :: cs =>
    if c = '>' then (tag acc).bind fun t => (lex .data cs).map (t :: ·)
    else lex (.tag (acc ++ [c])) cs
  | .ref acc, c :: cs =>
    if c = ';' then (charRef acc).bind fun d => (lex .data cs).map (.char d :: ·)
    else lex (.ref (acc ++ [c])) cs

/-- The tokens of a page. -/
def tokens (page : Str) : Option (List Token) := lex .data page

/-- Split at semicolons. -/
def splitSemi : Str → List Str
  | [] => [[]]
  | c :: cs =>
    if c = ';' then [] :: splitSemi cs
    else match splitSemi cs with
      | [] => [[c]]
      | p :: ps => (c :: p) :: ps

/-- The colour a CSS colour value stands for; `none` for an unknown one. -/
def cssColor (v : Str) : Option Color :=
  if v = str "black" then some .Black
  else if v = str "red" then some .Red
  else if v = str "green" then some .Green
  else if v = str "yellow" then some .Yellow
  else if v = str "blue" then some .Blue
  else if v = str "magenta" then some .Magenta
  else if v = str "cyan" then some .Cyan
  else if v = str "white" then some .White
  else if v = str "gray" then some .BrightBlack
  else if v = str "#af0000" then some .BrightRed
  else if v = str "#00ff00" then some .BrightGreen
  else if v = str "#ffff00" then some .BrightYellow
  else if v = str "#0000ff" then some .BrightBlue
  else if v = str "#ff00ff" then some .BrightMagenta
  else if v = str "#00ffff" then some .BrightCyan
  else if v = str "#ffffff" then some .BrightWhite
  else none

/-- What a CSS colour value looks like (CSS Color 4, named colours and `#rrggbb`), for the values above. -/
def cssRgb (v : Str) : Option (Nat × Nat × Nat) :=
  if v = str "black" then some (0, 0, 0)
  else if v = str "red" then some (255, 0, 0)
  else if v = str "green" then some (0, 128, 0)
  else if v = str "yellow" ∨ v = str "#ffff00" then some (255, 255, 0)
  else if v = str "blue" ∨ v = str "#0000ff" then some (0, 0, 255)
  else if v = str "magenta" ∨ v = str "#ff00ff" then some (255, 0, 255)
  else if v = str "cyan" ∨ v = str "#00ffff" then some (0, 255, 255)
  else if v = str "white" ∨ v = str "#ffffff" then some (255, 255, 255)
  else if v = str "gray" then some (128, 128, 128)
  else if v = str "#af0000" then some (175, 0, 0)
  else if v = str "#00ff00" then some (0, 255, 0)
  else none

/-- The effect of one CSS declaration on the style of the parent element; `none` for an unknown one. -/
def declaration (d : Str) (parent : Style) : Option Style :=
  match after (str "color:") d with
  | some v => (cssColor v).map fun c => { parent with foreground := c }
  | none =>
    match after (str "background-color:") d with
    | some v => (cssColor v).map fun c => { parent with background := c }
    | none =>
      if d = str "font-weight:bolder" then some { parent with intensity := .Bold }
      else if d = str "font-weight:lighter" then some { parent with intensity := .Faint }
      else none

/-- The effect of a list of declarations. -/
def declarations : List Str → Style → Option Style
  | [], st => some st
  | d :: ds, st => (declaration d st).bind (declarations ds)

/-- The effect of a `style` attribute on the style of the parent element. -/
def styleAttr (v : Str) (parent : Style) : Option Style := declarations (splitSemi v) parent

/-- Read tokens with the given stack of open spans (styles, innermost first) around text in the default
style. Every span must be closed at the end and every closing tag must close a span. -/
def page : List Style → List Token → Option Styled
  | [], [] => some []
  | _ :: _, [] => none
  | stack, .char c :: ts => (page stack ts).map ((c, stack.headD ⟨.Default, .Default, .Normal⟩) :: ·)
  | stack, .open v :: ts =>
    (styleAttr v (stack.headD ⟨.Default, .Default, .Normal⟩)).bind fun st => page (st :: stack) ts
  | _ :: stack, .close :: ts => page stack ts
  | [], .close :: _ => none

/-- Read a page: the characters it shows and the style of each. -/
def read (s : Str) : Option Styled := (tokens s).bind (page [])

/-- Follow the spans: from "a span is open" or not, to whether one is open at the end; `none` if a span is
opened inside another or a closing tag closes nothing. -/
def spans : Bool → List Token → Option Bool
  | b, [] => some b
  | b, .char _ :: ts => spans b ts
  | false, .open _ :: ts => spans true ts
  | true, .open _ :: _ => none
  | true, .close :: ts => spans false ts
  | false, .close :: _ => none

/-- The styles of the spans that are open after the given tokens (innermost first), starting with the
given ones; `none` if a closing tag closes nothing or a style is not understood. -/
def openSpans : List Style → List Token → Option (List Style)
  | stack, [] => some stack
  | stack, .char _ :: ts => openSpans stack ts
  | stack, .open v :: ts =>
    (styleAttr v (stack.headD ⟨.Default, .Default, .Normal⟩)).bind fun st => openSpans (st :: stack) ts
  | _ :: stack, .close :: ts => openSpans stack ts
  | [], .close :: _ => none

/-- The styles of the open spans after what is there of a page; `none` also if it ends inside a tag or a
character reference. -/
def standing (s : Str) : Option (List Style) := (tokens s).bind (openSpans [])

/-- The text of the tokens. -/
def chars (ts : List Token) : Str :=
  ts.filterMap fun t => match t with
    | .char c => some c
    | _ => none

/-- The tags, with the number of characters before each. -/
def tagsAt : Nat → List Token → List (Nat × Token)
  | _, [] => []
  | n, .char _ :: ts => tagsAt (n + 1) ts
  | n, t :: ts => (n, t) :: tagsAt n ts

end Stylish.Spec.HtmlReader
