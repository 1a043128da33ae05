import Verif.Spec.Browser
/-
Specification: the content of an XML document (C107), after XML 1.0 (fifth edition): elements with attributes, character
references and the five predefined entities, well nested; written for this project, character by character. Anything that
is not well-formed is rejected (`none`), because an XML processor must stop there. Comments, processing instructions and
CDATA sections are rejected too (a simplification); `<!` and `<?` never are in the output.
-/

namespace Stylish.Spec.Xml

/-- The characters of a document (2.2, production 2), of those that Rust's `char` has. -/
def isChar (c : Char) : Bool :=
  c = '\t' || c = '\n' || c = '\r' || (0x20 ≤ c.toNat && c.toNat ≤ 0xD7FF) || (0xE000 ≤ c.toNat && c.toNat ≤ 0xFFFD) ||
    (0x10000 ≤ c.toNat && c.toNat ≤ 0x10FFFF)

/-- White space (2.3, production 3). -/
def isSpace (c : Char) : Bool := c = ' ' || c = '\t' || c = '\n' || c = '\r'

/-- What a name can start with (2.3, production 4). -/
def isNameStart (c : Char) : Bool :=
  c = ':' || c = '_' ||
    [(0x41, 0x5A), (0x61, 0x7A), (0xC0, 0xD6), (0xD8, 0xF6), (0xF8, 0x2FF), (0x370, 0x37D), (0x37F, 0x1FFF),
      (0x200C, 0x200D), (0x2070, 0x218F), (0x2C00, 0x2FEF), (0x3001, 0xD7FF), (0xF900, 0xFDCF), (0xFDF0, 0xFFFD),
      (0x10000, 0xEFFFF)].any fun (a, b) => a ≤ c.toNat && c.toNat ≤ b

/-- What a name can go on with (2.3, production 4a). -/
def isName (c : Char) : Bool :=
  isNameStart c || c = '-' || c = '.' ||
    [(0x30, 0x39), (0xB7, 0xB7), (0x300, 0x36F), (0x203F, 0x2040)].any fun (a, b) => a ≤ c.toNat && c.toNat ≤ b

/-- A number in a base, if all are digits of it. -/
def number (base : Nat) (acc : Nat) : Str → Option Nat
  | [] => some acc
  | c :: cs =>
    let d := if '0' ≤ c ∧ c ≤ '9' then c.toNat - '0'.toNat
      else if 'a' ≤ c ∧ c ≤ 'f' then c.toNat - 'a'.toNat + 10
      else if 'A' ≤ c ∧ c ≤ 'F' then c.toNat - 'A'.toNat + 10 else base
    if d < base then number base (acc * base + d) cs else none

/-- The character with a number, if it is a character of a document. -/
def charOf (n : Nat) : Option Char :=
  if h : n.isValidChar then (if isChar (Char.ofNatAux n h) then some (Char.ofNatAux n h) else none) else none

/-- A reference, without `&` and `;` (4.1, 4.6). -/
def reference : Str → Option Char
  | '#' :: 'x' :: c :: cs => (number 16 0 (c :: cs)).bind charOf
  | '#' :: c :: cs => (number 10 0 (c :: cs)).bind charOf
  | name =>
    if name = str "amp" then some '&' else if name = str "lt" then some '<' else if name = str "gt" then some '>'
    else if name = str "quot" then some '"' else if name = str "apos" then some '\'' else none

inductive Token where
  | char (c : Char)
  | startTag (name : Str) (attrs : List (Str × Str))
  | endTag (name : Str)
  deriving DecidableEq, Repr

/-- Where in the content the reader is. -/
inductive State where
  | data (brackets : Nat)                                       -- in text, after so many `]`
  | ref (soFar : Str)                                           -- `&..`
  | lt                                                          -- `<`
  | name (soFar : Str)                                          -- `<na`
  | gap (name : Str) (attrs : List (Str × Str))                 -- `<name `
  | attr (name : Str) (attrs : List (Str × Str)) (soFar : Str)  -- `<name at`
  | beforeEq (name : Str) (attrs : List (Str × Str)) (a : Str)  -- `<name attr `
  | afterEq (name : Str) (attrs : List (Str × Str)) (a : Str)   -- `<name attr=`
  | value (name : Str) (attrs : List (Str × Str)) (a : Str) (quote : Char) (soFar : Str)
  | valueRef (name : Str) (attrs : List (Str × Str)) (a : Str) (quote : Char) (soFar : Str) (ref : Str)
  | closed (name : Str) (attrs : List (Str × Str))              -- `<name attr="value"`
  | slash (name : Str) (attrs : List (Str × Str))               -- `<name /`
  | endStart                                                    -- `</`
  | endName (soFar : Str)                                       -- `</na`
  | endGap (name : Str)                                         -- `</name `
  deriving DecidableEq, Repr

/-- One character (productions 14, 40-44, 66-68). -/
def step : State → Char → Option (List Token × State)
  | .data n, c =>
    if c = '<' then some ([], .lt)
    else if c = '&' then some ([], .ref [])
    else if c = '>' ∧ 2 ≤ n then none
    else if isChar c then some ([.char c], .data (if c = ']' then n + 1 else 0)) else none
  | .ref r, c => if c = ';' then (reference r).map fun d => ([.char d], .data 0) else some ([], .ref (r ++ [c]))
  | .lt, c => if c = '/' then some ([], .endStart) else if isNameStart c then some ([], .name [c]) else none
  | .name n, c =>
    if isName c then some ([], .name (n ++ [c]))
    else if isSpace c then some ([], .gap n [])
    else if c = '/' then some ([], .slash n [])
    else if c = '>' then some ([.startTag n []], .data 0) else none
  | .gap n as, c =>
    if isSpace c then some ([], .gap n as)
    else if isNameStart c then some ([], .attr n as [c])
    else if c = '/' then some ([], .slash n as)
    else if c = '>' then some ([.startTag n as], .data 0) else none
  | .attr n as a, c =>
    if isName c then some ([], .attr n as (a ++ [c]))
    else if isSpace c then some ([], .beforeEq n as a)
    else if c = '=' then some ([], .afterEq n as a) else none
  | .beforeEq n as a, c =>
    if isSpace c then some ([], .beforeEq n as a) else if c = '=' then some ([], .afterEq n as a) else none
  | .afterEq n as a, c =>
    if isSpace c then some ([], .afterEq n as a)
    else if (c = '"' ∨ c = '\'') ∧ a ∉ as.map Prod.fst then some ([], .value n as a c []) else none
  | .value n as a q v, c =>
    if c = q then some ([], .closed n (as ++ [(a, v)]))
    else if c = '<' then none
    else if c = '&' then some ([], .valueRef n as a q v [])
    else if isChar c then some ([], .value n as a q (v ++ [if isSpace c then ' ' else c])) else none
  | .valueRef n as a q v r, c =>
    if c = ';' then (reference r).map fun d => ([], .value n as a q (v ++ [d]))
    else some ([], .valueRef n as a q v (r ++ [c]))
  | .closed n as, c =>
    if isSpace c then some ([], .gap n as)
    else if c = '/' then some ([], .slash n as)
    else if c = '>' then some ([.startTag n as], .data 0) else none
  | .slash n as, c => if c = '>' then some ([.startTag n as, .endTag n], .data 0) else none
  | .endStart, c => if isNameStart c then some ([], .endName [c]) else none
  | .endName n, c =>
    if isName c then some ([], .endName (n ++ [c]))
    else if isSpace c then some ([], .endGap n)
    else if c = '>' then some ([.endTag n], .data 0) else none
  | .endGap n, c =>
    if isSpace c then some ([], .endGap n) else if c = '>' then some ([.endTag n], .data 0) else none

/-- The tokens of a content; it must not end inside markup. -/
def tokens : State → Str → Option (List Token)
  | .data _, [] => some []
  | _, [] => none
  | s, c :: cs => (step s c).bind fun (out, s') => (tokens s' cs).map (out ++ ·)

/-- The text, if every element is closed in its turn. -/
def nested : List Str → List Token → Option Str
  | [], [] => some []
  | _ :: _, [] => none
  | stack, .char c :: ts => (nested stack ts).map (c :: ·)
  | stack, .startTag n _ :: ts => nested (n :: stack) ts
  | [], .endTag _ :: _ => none
  | n :: stack, .endTag m :: ts => if n = m then nested stack ts else none

/-- The text of the content of an element, if it is well-formed. Line breaks are normalised first, as on a page (2.11). -/
def read (content : Str) : Option Str := (tokens (.data 0) (Browser.newlines content)).bind (nested [])

end Stylish.Spec.Xml
