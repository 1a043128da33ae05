import Verif.Spec.Css
/-
Specification: a page on which only some of the declarations in style attributes count (C115): backgrounds are not printed, colours
are those of the reader in forced colors and reader modes, and a content security policy without `unsafe-inline` lets no style
attribute count (CSP 3, 8.3). As in Spec/Css otherwise.
-/

namespace Stylish.Spec.Css

/-- Which declarations count. -/
abbrev Policy := Declaration → Bool

/-- A span, of whose declarations some count. -/
def spanUnder (colors : Colors) (policy : Policy) (parent : Look) (attrs : List (Str × Str)) : Option Look :=
  match attrs.lookup (str "style") with
  | some v => (declarations colors v).map fun ds => (ds.filter policy).foldl (apply parent) parent
  | none => some parent

/-- The characters shown and what they look like, in the given open spans. -/
def buildUnder (colors : Colors) (policy : Policy) (base : Look) :
    List Look → List Browser.Token → Option (List (Char × Look))
  | _, [] => some []
  | stack, .char c :: ts =>
    (buildUnder colors policy base stack ts).map fun r => if c = '\x00' then r else (c, stack.headD base) :: r
  | stack, .startTag name attrs _ :: ts =>
    if name = str "span" then
      (spanUnder colors policy (stack.headD base) attrs).bind fun look => buildUnder colors policy base (look :: stack) ts
    else none
  | stack, .endTag name :: ts => if name = str "span" then buildUnder colors policy base stack.tail ts else none
  | stack, .parseError :: ts => buildUnder colors policy base stack ts
  | _, .outside :: _ => none

/-- What a page looks like. -/
def looksUnder (names : Browser.Names) (colors : Colors) (policy : Policy) (base : Look) (page : Str) :
    Option (List (Char × Look)) :=
  buildUnder colors policy base [] (Browser.tokenize names page)

/-- What a style should look like: each of its three parts is as it says if that may be, and else as on the page. -/
def lookUnder (policy : Policy) (base : Look) (st : Style) : Look where
  color := if policy (.color (.rgb (rgb base.color st.foreground))) then rgb base.color st.foreground else base.color
  behind := if policy (.backgroundColor (.rgb (rgb base.behind st.background))) then rgb base.behind st.background else base.behind
  weight := match st.intensity with
    | .Normal => base.weight
    | .Bold => if policy (.fontWeight .bolder) then weight base.weight .Bold else base.weight
    | .Faint => if policy (.fontWeight .lighter) then weight base.weight .Faint else base.weight

/-- As printed. -/
def noBackgrounds : Policy
  | .backgroundColor _ => false
  | _ => true

/-- In the colours of the reader. -/
def noColors : Policy
  | .fontWeight _ => true
  | _ => false

end Stylish.Spec.Css
