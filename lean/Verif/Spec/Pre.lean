import Verif.Spec.Browser
/-
Specification: white space on a page (C105). The element `pre` after the HTML standard (13.2.6.4.7), where white space
is kept; and the collapsing of white space everywhere else, after CSS Text 3 (4.1.1, 4.1.2), for a block with no
preserved white space, as long as its lines are not broken for want of room.
-/

namespace Stylish.Spec.Browser

/-- After the start tag of a `pre`, a line feed is ignored if it is the next token. -/
def afterPre : List Token → List Token
  | .parseError :: ts => .parseError :: afterPre ts
  | .char c :: ts => if c = '\n' then ts else .char c :: ts
  | ts => ts

/-- What is inside the `pre` a page begins with. -/
def preContent : List Token → Option (List Token)
  | .startTag name _ _ :: ts =>
    if name = str "pre" then some (afterPre (ts.takeWhile (· ≠ .endTag (str "pre")))) else none
  | _ => none

/-- What a browser shows of a page that is a `pre`. -/
def preShows (names : Names) (page : Str) : Option Styled := (preContent (tokenize names page)).bind (build [])

/-- Without the line feed at the start, if there is one that is in no style. -/
def dropBreak : Styled → Styled
  | [] => []
  | (c, st) :: t => if c = '\n' ∧ st = ⟨.Default, .Default, .Normal⟩ then t else (c, st) :: t

/-- White space that is collapsed. -/
def isBlank (c : Char) : Bool := c = ' ' || c = '\t' || c = '\n'

/-- The space that a run of white space will become: in the style of the first line feed if there is one (the white
space around line feeds is removed, and so are line feeds that follow another), else of the first character. -/
def blank (c : Char) (st : Style) : Option (Bool × Style) → Bool × Style
  | none => (c = '\n', st)
  | some (true, st') => (true, st')
  | some (false, st') => if c = '\n' then (true, st) else (false, st')

/-- White space collapsed: a run of it is one space, and there is none at the start and the end. `started`: something
has been shown; `run`: the white space since. -/
def collapse (started : Bool) (run : Option (Bool × Style)) : Styled → Styled
  | [] => []
  | (c, st) :: t =>
    if isBlank c then collapse started (some (blank c st run)) t
    else (match run with
      | some (_, st') => if started then [(' ', st')] else []
      | none => []) ++ (c, st) :: collapse true none t

/-- What a browser shows of a page in normal flow. -/
def flowShows (names : Names) (page : Str) : Option Styled := (shows names page).map (collapse false none)

/-- The words of a text: what is between white space. -/
def words (word : Styled) : Styled → List Styled
  | [] => if word = [] then [] else [word]
  | (c, st) :: t =>
    if isBlank c then (if word = [] then words [] t else word :: words [] t) else words (word ++ [(c, st)]) t

/-- Words with single spaces between. -/
def spaced : List Str → Str
  | [] => []
  | [w] => w
  | w :: ws => w ++ ' ' :: spaced ws

end Stylish.Spec.Browser
