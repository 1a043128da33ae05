import Verif.Spec.Text
/-
Specification vocabulary: searching for a word in an output, as by `grep` or in a pager (C110).
-/

namespace Stylish.Spec

/-- The word is somewhere in the text, all of it in one style. (`<:+:` is "is a contiguous part of".) -/
def inOneStyle (word : Str) (t : Styled) : Prop := ∃ st : Style, word.map (fun c => (c, st)) <:+: t

/-- A word as it is written in HTML source. -/
def htmlSource (word : Str) : Str :=
  word.flatMap fun c =>
    if c = '<' then str "&lt;" else if c = '>' then str "&gt;" else if c = '&' then str "&amp;"
    else if c = '"' then str "&quot;" else if c = '\'' then str "&#x27;" else [c]

/-- A character that escape sequences have after their first: a word that begins with one may be found within one. -/
def inSequence (c : Char) : Bool := c = '[' || c.isDigit || c = ';' || c = 'm'

/-- A character that tags and character references are made of, other than those that are escaped in text: a word that begins
with one may be found within one. -/
def inMarkup (c : Char) : Bool :=
  c.isLower || c.isDigit || c = '/' || c = '=' || c = ':' || c = ';' || c = '#' || c = '-' || c = ' '

example : htmlSource (str "R&D <b>") = str "R&amp;D &lt;b&gt;" := by decide +kernel

end Stylish.Spec
