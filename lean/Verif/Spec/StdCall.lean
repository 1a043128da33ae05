import Verif.Spec.StdFormat
/-
Specification: calls of std's own `format!` (documentation of std::fmt), leaving out counts that are taken from
arguments (`width$`, `.prec$`, `.*`). Written independently of the macros of this crate: std's placeholders may end in
white space, its fill may be any character, its argument numbers count the named arguments too, an argument name may be
a raw identifier, and a name must not be given twice.
-/

namespace Stylish.Spec.StdCall

open Syntax

variable {X : Type}

/-- A piece of a format string of std: `space` is the white space before the closing brace. -/
inductive Piece where
  | text (s : Str)
  | openBrace
  | closeBrace
  | arg (ref : Option ArgRef) (spec : Option SpecSyn) (space : Str)
  deriving DecidableEq

def Piece.print : Piece → Str
  | .text s => s
  | .openBrace => ['{', '{']
  | .closeBrace => ['}', '}']
  | .arg ref spec space =>
    ['{'] ++ optStr ArgRef.print ref ++ optStr (fun s => ':' :: s.print) spec ++ space ++ ['}']

def print (t : List Piece) : Str := t.flatMap Piece.print

def Piece.isText : Piece → Bool
  | .text _ => true
  | _ => false

def Piece.isBare : Piece → Bool
  | .arg none _ _ => true
  | _ => false

/-- The format string `{:}`, without white space. -/
def Piece.isEmptySpec : Piece → Bool
  | .arg _ (some s) [] => s.print.isEmpty
  | _ => false

/-- The specifications of std: the counts are numbers, there are no attributes, and the trait is one of std's. -/
def StdSpec (E : Env) (s : SpecSyn) : Prop :=
  s.Documented E ∧ (∀ w, s.width = some w → ∃ ds, w = .lit ds ∧ numeralValue ds ≤ E.usizeMax) ∧
  (∀ p, s.precision = some p → ∃ ds, p = .count (.lit ds) ∧ numeralValue ds ≤ E.usizeMax) ∧
  s.attrs = none ∧ s.ty ≠ .stylish

def Piece.Ok (E : Env) : Piece → Prop
  | .text s => s ≠ [] ∧ '{' ∉ s ∧ '}' ∉ s
  | .openBrace => True
  | .closeBrace => True
  | .arg ref spec space =>
    (∀ r, ref = some r → r.Documented E ∧ ∀ ds, r = .index ds → numeralValue ds ≤ E.usizeMax) ∧
    (∀ s, spec = some s → StdSpec E s) ∧ ∀ c ∈ space, c.isWhitespace = true

/-- A tree of std's grammar. Consecutive text is one piece, and `{:}` is not followed by `<`, `^` or `>` (std would take
the closing brace for a fill). -/
def Tree (E : Env) : List Piece → Prop
  | [] => True
  | p :: rest => p.Ok E ∧ (p.isText = true → ∀ q ∈ rest.head?, q.isText = false) ∧
      (p.isEmptySpec = true → startsWithAlign (print rest) = false) ∧ Tree E rest

/-- The name of an argument; a raw identifier counts as the name without `r#`. -/
def nameOf : MacroArg X → Option Str
  | .positional _ => none
  | .named ('r' :: '#' :: n) _ => some n
  | .named n _ => some n

def valueOf : MacroArg X → X
  | .positional v => v
  | .named _ v => v

/-- The number of placeholders without a reference among the pieces. -/
def bare (t : List Piece) : Nat := t.countP Piece.isBare

/-- Which of the arguments, in the order of the call, a placeholder shows; `none`: a variable. -/
def indexFor (args : List (MacroArg X)) (before : List Piece) : Option ArgRef → Option Nat
  | none => some (bare before)
  | some (.index ds) => some (numeralValue ds)
  | some (.name n) => args.findIdx? (fun a => nameOf a = some n)

/-- What a placeholder shows: one of the arguments, or else the variable. -/
def shown (args : List (MacroArg X)) (scope : Str → X) (before : List Piece) (ref : Option ArgRef) : Option X :=
  match indexFor args before ref, ref with
  | some i, _ => (args[i]?).map valueOf
  | none, some (.name n) => some (scope n)
  | none, _ => none

/-- The reference of a placeholder exists: there is such an argument, or else the name can be that of a variable. -/
def RefOk (args : List (MacroArg X)) (before : List Piece) (ref : Option ArgRef) : Prop :=
  (∃ i, indexFor args before ref = some i ∧ i < args.length) ∨
  indexFor args before ref = none ∧
    ∃ n, ref = some (.name n) ∧ n ∉ [str "_", str "super", str "Self", str "crate"]

/-- The calls of `format!` that std accepts. -/
structure Accepts (E : Env) (t : List Piece) (args : List (MacroArg X)) : Prop where
  tree : Tree E t
  positionalFirst : PositionalFirst args
  distinct : (args.filterMap nameOf).Nodup
  refs : ∀ before ref spec space after, t = before ++ .arg ref spec space :: after →
    RefOk args before ref
  used : ∀ i < args.length, ∃ before ref spec space after, t = before ++ .arg ref spec space :: after ∧
    indexFor args before ref = some i

/-- The options std's formatter has for a specification: those written; the fill is a space if none is written. -/
def options (s : SpecSyn) : StdOpts :=
  { s.stdOptions with fill := (s.align.bind Prod.fst).getD ' ' }

/-- The text of one piece. -/
def pieceText (args : List (MacroArg ArgVal)) (scope : Str → ArgVal) (before : List Piece) : Piece → Option Str
  | .text s => some s
  | .openBrace => some ['{']
  | .closeBrace => some ['}']
  | .arg ref spec _ =>
    (shown args scope before ref).bind fun v => stdText (v.std (specOf spec).ty.trait (options (specOf spec)))

/-- The string that `format!` returns; `none` when it panics, because a formatting trait returned an error or panicked. -/
def format (args : List (MacroArg ArgVal)) (scope : Str → ArgVal) (before : List Piece) : List Piece → Option Str
  | [] => some []
  | p :: rest =>
    (pieceText args scope before p).bind fun s => (format args scope (before ++ [p]) rest).map (s ++ ·)

/-- The calls of std that can be taken over: no fill other than a space, no white space in a placeholder, no named
argument referred to by number, no variable `self`, no raw argument name. -/
structure Portable (t : List Piece) (args : List (MacroArg X)) : Prop where
  fill : ∀ ref s space fill align, .arg ref (some s) space ∈ t → s.align = some (some fill, align) → fill = ' '
  space : ∀ ref spec space, .arg ref spec space ∈ t → space = []
  numbers : ∀ before ref spec space after, t = before ++ .arg ref spec space :: after →
    (∀ n, ref ≠ some (.name n)) → ∀ i, indexFor args before ref = some i → ∀ a, args[i]? = some a → nameOf a = none
  noSelf : ∀ spec space, .arg (some (.name (str "self"))) spec space ∈ t → ∃ a ∈ args, nameOf a = some (str "self")
  noRaw : ∀ n v, .named n v ∈ args → ¬ str "r#" <+: n

end Stylish.Spec.StdCall
