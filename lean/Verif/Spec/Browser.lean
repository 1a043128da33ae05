import Verif.Spec.HtmlReader
/-
Specification: how a browser reads a page, after the HTML standard: input stream preprocessing (13.2.3.5), the
tokenizer (13.2.5) and as much of tree construction as a page of text and spans needs (13.2.6.4.7). Unlike
`HtmlReader`, which accepts only a small fragment, this is what happens to any text whatsoever: nothing is
"rejected", markup that is not meant as such is simply obeyed.

The named character references (13.5, over 2000 names, with and without semicolon) are a parameter.

Not covered: the tokenizer states for comments, CDATA, DOCTYPE and processing instructions. When the tokenizer
would enter one of these it goes to the state `outside` and stays there. The states for script, style, textarea
and the like are entered by tree construction only; here every tag other than `span` makes the page unreadable
(`none`), so nothing is said about such pages.
-/

namespace Stylish.Spec.Browser

/-! ### Preprocessing -/

/-- CR LF and CR become LF. -/
def newlines : Str → Str
  | '\r' :: '\n' :: cs => '\n' :: newlines cs
  | '\r' :: cs => '\n' :: newlines cs
  | c :: cs => c :: newlines cs
  | [] => []

/-! ### Character references (13.2.5.72 - 13.2.5.80) -/

/-- The table of named character references: the names as in the standard, without `&`, some ending in `;` and
some not. -/
abbrev Names := Str → Option (List Char)

/-- What is assumed of the table: the four names used by the escaping, and that a semicolon is only ever the
last character of a name. -/
structure Names.Standard (names : Names) : Prop where
  lt : names (str "lt;") = some ['<']
  gt : names (str "gt;") = some ['>']
  amp : names (str "amp;") = some ['&']
  quot : names (str "quot;") = some ['"']
  semicolon : ∀ a b, names (a ++ ';' :: b) ≠ none → b = []

/-- The longest name in the table that the text starts with: its length and what it stands for. -/
def longest (names : Names) (acc : Str) : Str → Option (Nat × List Char)
  | [] => none
  | c :: cs =>
    match longest names (acc ++ [c]) cs with
    | some r => some r
    | none => (names (acc ++ [c])).map fun v => (acc.length + 1, v)

def isDigit (c : Char) : Bool := '0' ≤ c && c ≤ '9'
def isUpper (c : Char) : Bool := 'A' ≤ c && c ≤ 'Z'
def isLower (c : Char) : Bool := 'a' ≤ c && c ≤ 'z'
def isAlpha (c : Char) : Bool := isUpper c || isLower c
def isAlnum (c : Char) : Bool := isAlpha c || isDigit c

/-- The value of a hexadecimal digit. -/
def hexDigit (c : Char) : Option Nat :=
  if isDigit c then some (c.toNat - 48)
  else if 'a' ≤ c && c ≤ 'f' then some (c.toNat - 87)
  else if 'A' ≤ c && c ≤ 'F' then some (c.toNat - 55)
  else none

def decDigit (c : Char) : Option Nat := if isDigit c then some (c.toNat - 48) else none

/-- The digits at the start of a text: how many there are, and their value. -/
def digits (base : Nat) (digit : Char → Option Nat) (n value : Nat) : Str → Nat × Nat
  | [] => (n, value)
  | c :: cs =>
    match digit c with
    | some d => digits base digit (n + 1) (value * base + d) cs
    | none => (n, value)

/-- What 0x80 to 0x9F stand for (13.2.5.80): windows-1252. -/
def c1 : List (Nat × Nat) :=
  [(0x80, 0x20AC), (0x82, 0x201A), (0x83, 0x0192), (0x84, 0x201E), (0x85, 0x2026), (0x86, 0x2020), (0x87, 0x2021),
   (0x88, 0x02C6), (0x89, 0x2030), (0x8A, 0x0160), (0x8B, 0x2039), (0x8C, 0x0152), (0x8E, 0x017D), (0x91, 0x2018),
   (0x92, 0x2019), (0x93, 0x201C), (0x94, 0x201D), (0x95, 0x2022), (0x96, 0x2013), (0x97, 0x2014), (0x98, 0x02DC),
   (0x99, 0x2122), (0x9A, 0x0161), (0x9B, 0x203A), (0x9C, 0x0153), (0x9E, 0x017E), (0x9F, 0x0178)]

/-- The character with a number: U+FFFD for NUL, surrogates and numbers out of range. -/
def numbered (n : Nat) : Char :=
  if n = 0 ∨ n > 0x10FFFF ∨ (0xD800 ≤ n ∧ n ≤ 0xDFFF) then '\uFFFD'
  else Char.ofNat ((c1.lookup n).getD n)

/-- A reference: how many characters of the text after `&` it takes, what it stands for, and whether its
semicolon is there. -/
structure Ref where
  length : Nat
  stands : List Char
  closed : Bool
  deriving DecidableEq, Repr

/-- `#` digits `;` -/
def numericRef (skip base : Nat) (digit : Char → Option Nat) (cs : Str) : Option Ref :=
  match digits base digit 0 0 (cs.drop skip) with
  | (0, _) => none
  | (n, value) =>
    let closed := (cs.drop (skip + n)).head? = some ';'
    some ⟨skip + n + (if closed then 1 else 0), [numbered value], closed⟩

/-- The reference at the start of the text after `&`. -/
def reference (names : Names) (cs : Str) : Option Ref :=
  match cs with
  | '#' :: 'x' :: _ => numericRef 2 16 hexDigit cs
  | '#' :: 'X' :: _ => numericRef 2 16 hexDigit cs
  | '#' :: _ => numericRef 1 10 decDigit cs
  | _ => (longest names [] cs).map fun (n, v) => ⟨n, v, (cs.take n).getLast? = some ';'⟩

/-- The same in an attribute value, where a reference without semicolon before `=` or a letter or digit does
not count (13.2.5.73). -/
def attrReference (names : Names) (cs : Str) : Option Ref :=
  (reference names cs).filter fun r =>
    r.closed || cs.head? = some '#' || !(match (cs.drop r.length).head? with
      | some c => c = '=' || isAlnum c
      | none => false)

/-! ### The tokenizer (13.2.5.1, 6 - 8, 32 - 41) -/

inductive Token where
  | char (c : Char)
  | startTag (name : Str) (attrs : List (Str × Str)) (selfClosing : Bool)
  | endTag (name : Str)
  | parseError
  | outside
  deriving DecidableEq, Repr

/-- A tag in the making. -/
structure Tag where
  isEnd : Bool
  name : Str
  attrs : List (Str × Str)
  deriving DecidableEq, Repr

inductive State where
  | data
  | tagOpen
  | endTagOpen
  | tagName (t : Tag)
  | beforeAttrName (t : Tag)
  | attrName (t : Tag) (name : Str)
  | afterAttrName (t : Tag) (name : Option Str)
  | beforeAttrValue (t : Tag) (name : Str)
  | attrValue (quote : Option Char) (t : Tag) (name value : Str)
  | afterQuoted (t : Tag)
  | selfClosing (t : Tag)
  | outside
  deriving DecidableEq, Repr

/-- What happens at a character: the tokens, how many more characters are used up, the next state. -/
abbrev Step := List Token × Nat × State

def isSpace (c : Char) : Bool := c = '\t' || c = '\n' || c = '\x0c' || c = ' '

/-- ASCII letters become small, NUL becomes U+FFFD. -/
def nameChar (c : Char) : List Token × Char :=
  if isUpper c then ([], Char.ofNat (c.toNat + 32))
  else if c = '\x00' then ([.parseError], '\uFFFD')
  else ([], c)

/-- The tag is complete. End tags have no attributes. -/
def Tag.emit (t : Tag) (selfClosing : Bool) : List Token :=
  if t.isEnd then (if t.attrs = [] ∧ selfClosing = false then [] else [.parseError]) ++ [.endTag t.name]
  else [.startTag t.name t.attrs selfClosing]

/-- An attribute is complete; a second one of the same name is dropped. -/
def Tag.add (t : Tag) (name value : Str) : List Token × Tag :=
  if t.attrs.any (fun a => a.1 = name) then ([.parseError], t)
  else ([], { t with attrs := t.attrs ++ [(name, value)] })

/-- In the data state. `rest` is what follows `c`. -/
def inData (names : Names) (c : Char) (rest : Str) : Step :=
  if c = '&' then
    match reference names rest with
    | some r => ((if r.closed then [] else [.parseError]) ++ r.stands.map .char, r.length, .data)
    | none =>
      -- an unknown name with a semicolon, or a `#` without digits, is an error
      let bad := rest.head? = some '#' || ((rest.dropWhile isAlnum).head? = some ';' && rest.head? ≠ some ';')
      ((if bad then [.parseError] else []) ++ [.char '&'], 0, .data)
  else if c = '<' then ([], 0, .tagOpen)
  else if c = '\x00' then ([.parseError, .char c], 0, .data)
  else ([.char c], 0, .data)

def inTagName (t : Tag) (c : Char) : Step :=
  if isSpace c then ([], 0, .beforeAttrName t)
  else if c = '/' then ([], 0, .selfClosing t)
  else if c = '>' then (t.emit false, 0, .data)
  else ((nameChar c).1, 0, .tagName { t with name := t.name ++ [(nameChar c).2] })

/-- A new attribute without value, if there is one. -/
def Tag.addName (t : Tag) : Option Str → List Token × Tag
  | some name => t.add name []
  | none => ([], t)

/-- `again` is what to do with the first character of the next attribute name. -/
def inAfterAttrName (t : Tag) (name : Option Str) (c : Char) (again : Tag → Step) : Step :=
  if isSpace c then ([], 0, .afterAttrName t name)
  else if c = '/' then ((t.addName name).1, 0, .selfClosing (t.addName name).2)
  else if c = '=' then
    match name with
    | some n => ([], 0, .beforeAttrValue t n)
    | none => ([.parseError], 0, .attrName t ['='])
  else if c = '>' then ((t.addName name).1 ++ (t.addName name).2.emit false, 0, .data)
  else
    let (out, k, st) := again (t.addName name).2
    ((t.addName name).1 ++ out, k, st)

def inAttrName (t : Tag) (name : Str) (c : Char) : Step :=
  if isSpace c || c = '/' || c = '>' then
    -- no further attribute name can start here
    inAfterAttrName t (some name) c (fun t => ([], 0, .beforeAttrName t))
  else if c = '=' then ([], 0, .beforeAttrValue t name)
  else
    let err := if c = '"' || c = '\'' || c = '<' then [Token.parseError] else []
    (err ++ (nameChar c).1, 0, .attrName t (name ++ [(nameChar c).2]))

def inBeforeAttrName (t : Tag) (c : Char) : Step :=
  if isSpace c then ([], 0, .beforeAttrName t)
  else if c = '/' || c = '>' then inAfterAttrName t none c (fun t => ([], 0, .beforeAttrName t))
  else if c = '=' then ([.parseError], 0, .attrName t ['='])
  else inAttrName t [] c

/-- In an attribute value, quoted or not. -/
def inAttrValue (names : Names) (quote : Option Char) (t : Tag) (name value : Str) (c : Char) (rest : Str) : Step :=
  if some c = quote then ((t.add name value).1, 0, .afterQuoted (t.add name value).2)
  else if quote = none && isSpace c then ((t.add name value).1, 0, .beforeAttrName (t.add name value).2)
  else if quote = none && c = '>' then ((t.add name value).1 ++ (t.add name value).2.emit false, 0, .data)
  else if c = '&' then
    match attrReference names rest with
    | some r => ((if r.closed then [] else [.parseError]), r.length, .attrValue quote t name (value ++ r.stands))
    | none => ([], 0, .attrValue quote t name (value ++ ['&']))
  else if c = '\x00' then ([.parseError], 0, .attrValue quote t name (value ++ ['\uFFFD']))
  else
    let bad := quote = none && (c = '"' || c = '\'' || c = '<' || c = '=' || c = '`')
    ((if bad then [.parseError] else []), 0, .attrValue quote t name (value ++ [c]))

/-- One step of the tokenizer. -/
def step (names : Names) (st : State) (c : Char) (rest : Str) : Step :=
  match st with
  | .data => inData names c rest
  | .tagOpen =>
    if c = '!' || c = '?' then ([.outside], 0, .outside)
    else if c = '/' then ([], 0, .endTagOpen)
    else if isAlpha c then inTagName ⟨false, [], []⟩ c
    else
      let (out, k, st) := inData names c rest
      (.parseError :: .char '<' :: out, k, st)
  | .endTagOpen =>
    if isAlpha c then inTagName ⟨true, [], []⟩ c
    else if c = '>' then ([.parseError], 0, .data)
    else ([.outside], 0, .outside)
  | .tagName t => inTagName t c
  | .beforeAttrName t => inBeforeAttrName t c
  | .attrName t name => inAttrName t name c
  | .afterAttrName t name => inAfterAttrName t name c (fun t => inAttrName t [] c)
  | .beforeAttrValue t name =>
    if isSpace c then ([], 0, .beforeAttrValue t name)
    else if c = '"' || c = '\'' then ([], 0, .attrValue (some c) t name [])
    else if c = '>' then (.parseError :: (t.add name []).1 ++ (t.add name []).2.emit false, 0, .data)
    else inAttrValue names none t name [] c rest
  | .attrValue quote t name value => inAttrValue names quote t name value c rest
  | .afterQuoted t =>
    if isSpace c then ([], 0, .beforeAttrName t)
    else if c = '/' then ([], 0, .selfClosing t)
    else if c = '>' then (t.emit false, 0, .data)
    else
      let (out, k, st) := inBeforeAttrName t c
      (.parseError :: out, k, st)
  | .selfClosing t =>
    if c = '>' then (t.emit true, 0, .data)
    else
      let (out, k, st) := inBeforeAttrName t c
      (.parseError :: out, k, st)
  | .outside => ([], 0, .outside)

/-- What is left to say at the end of the page. -/
def atEnd : State → List Token
  | .data => []
  | .tagOpen => [.parseError, .char '<']
  | .endTagOpen => [.parseError, .char '<', .char '/']
  | .outside => []
  | _ => [.parseError]

/-- The tokens of a text, the first `skip` characters of which are used up already. -/
def tokens (names : Names) : Nat → State → Str → List Token
  | _, st, [] => atEnd st
  | k + 1, st, _ :: cs => tokens names k st cs
  | 0, st, c :: cs =>
    (step names st c cs).1 ++ tokens names (step names st c cs).2.1 (step names st c cs).2.2 cs

/-- The tokens of a page. -/
def tokenize (names : Names) (page : Str) : List Token := tokens names 0 .data (newlines page)

/-! ### Text and spans (13.2.6.4.7) -/

/-- The style of a span in a parent of the given style; `none` if a declaration is not known. -/
def spanStyle (attrs : List (Str × Str)) (parent : Style) : Option Style :=
  match attrs.lookup (str "style") with
  | some v => HtmlReader.styleAttr v parent
  | none => some parent

/-- The characters shown and their styles, in the given open spans (innermost first). NUL is ignored, and so is an
end tag without a span; spans left open end with the page. -/
def build : List Style → List Token → Option Styled
  | _, [] => some []
  | stack, .char c :: ts =>
    (build stack ts).map fun r => if c = '\x00' then r else (c, stack.headD ⟨.Default, .Default, .Normal⟩) :: r
  | stack, .startTag name attrs _ :: ts =>
    if name = str "span" then
      (spanStyle attrs (stack.headD ⟨.Default, .Default, .Normal⟩)).bind fun st => build (st :: stack) ts
    else none
  | stack, .endTag name :: ts => if name = str "span" then build stack.tail ts else none
  | stack, .parseError :: ts => build stack ts
  | _, .outside :: _ => none

/-- What a browser shows of a page. -/
def shows (names : Names) (page : Str) : Option Styled := build [] (tokenize names page)

/-! ### What a text should look like -/

/-- The line breaks of a styled text as a browser sees them: CR LF in one style is one line break, and so is a CR
without LF. CR and LF in different styles have a tag in between and are two line breaks. -/
def lineBreaks : Styled → Styled
  | [] => []
  | [(c, st)] => if c = '\r' then [('\n', st)] else [(c, st)]
  | (c, st) :: (d, st') :: t =>
    if c = '\r' then
      if d = '\n' ∧ st = st' then ('\n', st) :: lineBreaks t
      else ('\n', st) :: lineBreaks ((d, st') :: t)
    else (c, st) :: lineBreaks ((d, st') :: t)

/-- NUL is not shown. -/
def noNul (t : Styled) : Styled := t.filter fun x => x.1 ≠ '\x00'

/-- What there is to see of a styled text. -/
def visible (t : Styled) : Styled := noNul (lineBreaks t)

end Stylish.Spec.Browser
