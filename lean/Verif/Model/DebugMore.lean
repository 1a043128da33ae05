import Verif.Model.Debug
import Verif.Model.Ansi
import Verif.Model.Html
import Verif.Model.Plain
import Verif.Model.StyString
/-
`{:?}` and `{:#?}` of an attributed string and of the writers: the `derive(Debug)`s at /repo/core/src/string.rs:42,
/repo/ansi/src/ansi.rs:16, /repo/html/src/html.rs:20 and /repo/plain/src/plain.rs:12, the writers on
`alloc::string::String` only.
-/

namespace Stylish

/-- `char::escape_debug` as `impl Debug for str` uses it (external; for core/src/string.rs:44): which characters are shown as they
are (those that `core` takes for printable) is arbitrary. -/
def escapeDebug (shown : Char → Bool) (c : Char) : Str :=
  if c = '\x00' then ['\\', '0']
  else if c = '\t' then ['\\', 't']
  else if c = '\r' then ['\\', 'r']
  else if c = '\n' then ['\\', 'n']
  else if c = '"' then ['\\', '"']
  else if c = '\\' then ['\\', '\\']
  else if shown c then [c]
  else ['\\', 'u', '{'] ++ Nat.toDigits 16 c.toNat ++ ['}']

/-- `impl Debug for str` (external; for core/src/string.rs:44). -/
def debugStr (shown : Char → Bool) (s : Str) : Str := ['"'] ++ s.flatMap (escapeDebug shown) ++ ['"']

mutual
/-- What the derived `Debug` implementations describe to `core::fmt` (external; for core/src/string.rs:43-46). -/
inductive DebugNode where
  | val (v : DebugVal)
  /-- a `str` or `String` -/
  | text (s : Str)
  /-- a tuple without a name -/
  | tup (fields : DebugNodes)
  /-- a `Vec` -/
  | list (items : DebugNodes)
  /-- a struct with named fields -/
  | struct (name : Str) (fields : DebugNodeFields)
/-- (external; core/src/string.rs:45) -/
inductive DebugNodes where
  | nil
  | cons (item : DebugNode) (rest : DebugNodes)
/-- (external; core/src/string.rs:43-46) -/
inductive DebugNodeFields where
  | nil
  | cons (name : Str) (value : DebugNode) (rest : DebugNodeFields)
end

section
variable (shown : Char → Bool)

mutual
/-- `{:?}` (external: `DebugStruct`, `DebugTuple`, `DebugList`; for core/src/string.rs:42). -/
def DebugNode.plain : DebugNode → Str
  | .val v => v.plain
  | .text s => debugStr shown s
  | .tup .nil => str "()"
  | .tup items => str "(" ++ items.plain [] ++ str ")"
  | .list items => str "[" ++ items.plain [] ++ str "]"
  | .struct name .nil => name
  | .struct name fields => name ++ fields.plain (str " { ") ++ str " }"
/-- (external; core/src/string.rs:45) -/
def DebugNodes.plain (before : Str) : DebugNodes → Str
  | .nil => []
  | .cons item rest => before ++ item.plain ++ rest.plain (str ", ")
/-- (external; core/src/string.rs:43-46) -/
def DebugNodeFields.plain (before : Str) : DebugNodeFields → Str
  | .nil => []
  | .cons name value rest => before ++ name ++ str ": " ++ value.plain ++ rest.plain (str ", ")
end

mutual
/-- `{:#?}` (external; for core/src/string.rs:42). -/
def DebugNode.pretty : DebugNode → Str
  | .val v => v.pretty
  | .text s => debugStr shown s
  | .tup .nil => str "()"
  | .tup items => str "(\n" ++ items.pretty ++ str ")"
  | .list .nil => str "[]"
  | .list items => str "[\n" ++ items.pretty ++ str "]"
  | .struct name .nil => name
  | .struct name fields => name ++ str " {\n" ++ fields.pretty ++ str "}"
/-- (external; core/src/string.rs:45) -/
def DebugNodes.pretty : DebugNodes → Str
  | .nil => []
  | .cons item rest => padLines true (item.pretty ++ str ",\n") ++ rest.pretty
/-- (external; core/src/string.rs:43-46) -/
def DebugNodeFields.pretty : DebugNodeFields → Str
  | .nil => []
  | .cons name value rest => padLines true (name ++ str ": " ++ value.pretty ++ str ",\n") ++ rest.pretty
end

/-- `format!("{:?}", x)`, and with `alternate` `format!("{:#?}", x)` (core/src/string.rs:42, external). -/
def DebugNode.shownAs (alternate : Bool) (x : DebugNode) : Str := if alternate then x.pretty shown else x.plain shown

end

/-- `derive(Debug)` on a pair of `usize` and `Style` (external; for core/src/string.rs:45). -/
def debugStart (p : Nat × Style) : DebugNode := .tup (.cons (.val (.nat p.1)) (.cons (.val p.2.debug) .nil))

/-- `derive(Debug)` on a `Vec` of them (external; for core/src/string.rs:45). -/
def debugStarts : List (Nat × Style) → DebugNodes
  | [] => .nil
  | p :: rest => .cons (debugStart p) (debugStarts rest)

/-- core/src/string.rs:42 `derive(Debug)` on `String`. -/
def StyString.debug (s : StyString) : DebugNode :=
  .struct (str "String") (.cons (str "string") (.text s.string) (.cons (str "styles") (.list (debugStarts s.styles)) .nil))

/-- ansi/src/ansi.rs:16 `derive(Debug)` on `Ansi`. -/
def Ansi.debug (a : Ansi StdString) : DebugNode :=
  .struct (str "Ansi") (.cons (str "inner") (.text a.inner.chars) (.cons (str "current") (.val a.current.debug) .nil))

/-- html/src/html.rs:20 `derive(Debug)` on `Html`. -/
def Html.debug (a : Html StdString) : DebugNode :=
  .struct (str "Html") (.cons (str "inner") (.text a.inner.chars) (.cons (str "current") (.val a.current.debug) .nil))

/-- plain/src/plain.rs:12 `derive(Debug)` on `Plain`. -/
def Plain.debug (a : Plain StdString) : DebugNode :=
  .struct (str "Plain") (.cons (str "inner") (.text a.inner.chars) .nil)

end Stylish
