import Verif.Model.Basic
/-
The nom 7.1 parser combinators used by /repo/macros/src/format.rs (external library; each is modelled
by its documented behaviour in its `complete` variant).
-/

namespace Stylish.Nom

/-- `IResult`: `Ok((rest, a))`, `Err(Err::Error)`, `Err(Err::Failure)`; plus a panic.
(used throughout macros/src/format.rs:14-297) -/
inductive PRes (A : Type) where
  | ok (rest : Str) (a : A)
  | error
  | failure
  | panic
  deriving DecidableEq, Repr

/-- A parser. (macros/src/format.rs:21-23) -/
abbrev P (A : Type) := Str → PRes A

variable {A B C : Type}

/-- `?` on an `IResult` inside a hand-written parser. (macros/src/format.rs:173-201, 246-247) -/
def PRes.bind : PRes A → (Str → A → PRes B) → PRes B
  | .ok rest a, f => f rest a
  | .error, _ => .error
  | .failure, _ => .failure
  | .panic, _ => .panic

/-- Strip a prefix. (part of `tag`, macros/src/format.rs:28) -/
def stripPrefix : Str → Str → Option Str
  | [], s => some s
  | _ :: _, [] => none
  | c :: cs, d :: ds => if c = d then stripPrefix cs ds else none

/-- `nom::bytes::complete::tag` (used in macros/src/format.rs:28) -/
def tag (t : Str) : P Str := fun s =>
  match stripPrefix t s with
  | some rest => .ok rest t
  | none => .error

/-- `nom::character::complete::satisfy` (used in macros/src/format.rs:16-17) -/
def satisfy (p : Char → Bool) : P Char
  | [] => .error
  | c :: rest => if p c then .ok rest c else .error

/-- `nom::character::complete::char` (used in macros/src/format.rs:16) -/
def char (c : Char) : P Char := satisfy (· == c)

/-- `nom::character::complete::anychar` (used in macros/src/format.rs:174) -/
def anychar : P Char := satisfy (fun _ => true)

/-- `nom::character::complete::none_of` (used in macros/src/format.rs:268) -/
def noneOf (cs : Str) : P Char := satisfy (fun c => !cs.contains c)

/-- `nom::character::complete::digit1` on `&str`: one or more ASCII digits.
(used in macros/src/format.rs:159, 232) -/
def digit1 : P Str := fun s =>
  match s.takeWhile Char.isDigit with
  | [] => .error
  | ds => .ok (s.dropWhile Char.isDigit) ds

/-- `nom::combinator::map` (used in macros/src/format.rs:55, 175) -/
def map (p : P A) (f : A → B) : P B := fun s =>
  match p s with
  | .ok rest a => .ok rest (f a)
  | .error => .error
  | .failure => .failure
  | .panic => .panic

/-- `nom::combinator::map_res`: a conversion failure is an `Error`. (used in macros/src/format.rs:159, 232) -/
def mapRes (p : P A) (f : A → Option B) : P B := fun s =>
  match p s with
  | .ok rest a => match f a with
    | some b => .ok rest b
    | none => .error
  | .error => .error
  | .failure => .failure
  | .panic => .panic

/-- `nom::combinator::value` (used in macros/src/format.rs:28) -/
def value (b : B) (p : P A) : P B := map p (fun _ => b)

/-- `nom::combinator::opt`: only an `Error` becomes `None`. (used in macros/src/format.rs:173-189, 246-247) -/
def opt (p : P A) : P (Option A) := fun s =>
  match p s with
  | .ok rest a => .ok rest (some a)
  | .error => .ok s none
  | .failure => .failure
  | .panic => .panic

/-- `nom::combinator::cut`: `Error` becomes `Failure`. (used in macros/src/format.rs:56, 60, 73, 188, 276) -/
def cut (p : P A) : P A := fun s =>
  match p s with
  | .error => .failure
  | r => r

/-- `nom::branch::alt` on two parsers: the second is tried on an `Error` only.
(used in macros/src/format.rs:16, 174-175) -/
def orElse (p q : P A) : P A := fun s =>
  match p s with
  | .error => q s
  | r => r

/-- `nom::branch::alt` on a tuple. (used in macros/src/format.rs:27) -/
def alt : List (P A) → P A
  | [] => fun _ => .error
  | [p] => p
  | p :: ps => orElse p (alt ps)

/-- `nom::sequence::pair` (used in macros/src/format.rs:15, 174) -/
def pair (p : P A) (q : P B) : P (A × B) := fun s =>
  (p s).bind fun s a => (q s).bind fun s b => .ok s (a, b)

/-- `nom::sequence::preceded` (used in macros/src/format.rs:56, 187, 247) -/
def preceded (p : P A) (q : P B) : P B := map (pair p q) Prod.snd

/-- `nom::sequence::terminated` (used in macros/src/format.rs:158) -/
def terminated (p : P A) (q : P B) : P A := map (pair p q) Prod.fst

/-- `nom::sequence::delimited` (used in macros/src/format.rs:188, 276) -/
def delimited (p : P A) (q : P B) (r : P C) : P B := preceded p (terminated q r)

/-- `nom::combinator::recognize`: the consumed part of the input. (used in macros/src/format.rs:15, 268) -/
def recognize (p : P A) : P Str := fun s =>
  match p s with
  | .ok rest _ => .ok rest (s.take (s.length - rest.length))
  | .error => .error
  | .failure => .failure
  | .panic => .panic

/-- The loop of `many0`. Each iteration consumes input (otherwise nom returns an error), so
`s.length + 1` iterations always suffice; the `0` case is never reached from `many0`.
(used in macros/src/format.rs:17, 295) -/
def many0Loop (p : P A) : Nat → P (List A)
  | 0 => fun _ => .error
  | fuel + 1 => fun s =>
    match p s with
    | .error => .ok s []
    | .failure => .failure
    | .panic => .panic
    | .ok rest a =>
      if rest.length = s.length then .error
      else match many0Loop p fuel rest with
        | .ok rest as => .ok rest (a :: as)
        | r => r

/-- `nom::multi::many0` (used in macros/src/format.rs:17, 295) -/
def many0 (p : P A) : P (List A) := fun s => many0Loop p (s.length + 1) s

/-- `nom::multi::many1` (used in macros/src/format.rs:268) -/
def many1 (p : P A) : P (List A) := fun s =>
  (p s).bind fun rest a =>
    match many0Loop p (rest.length + 1) rest with
    | .ok rest as => .ok rest (a :: as)
    | r => r

/-- The loop of `separated_list0` after the first element; same fuel convention as `many0Loop`.
(used in macros/src/format.rs:73) -/
def separatedLoop (sep : P B) (p : P A) : Nat → P (List A)
  | 0 => fun _ => .error
  | fuel + 1 => fun s =>
    match sep s with
    | .error => .ok s []
    | .failure => .failure
    | .panic => .panic
    | .ok s1 _ =>
      if s1.length = s.length then .error
      else match p s1 with
        | .error => .ok s []
        | .failure => .failure
        | .panic => .panic
        | .ok s2 a => match separatedLoop sep p fuel s2 with
          | .ok rest as => .ok rest (a :: as)
          | r => r

/-- `nom::multi::separated_list0` (used in macros/src/format.rs:73) -/
def separatedList0 (sep : P B) (p : P A) : P (List A) := fun s =>
  match p s with
  | .error => .ok s []
  | .failure => .failure
  | .panic => .panic
  | .ok s1 a => match separatedLoop sep p (s1.length + 1) s1 with
    | .ok rest as => .ok rest (a :: as)
    | r => r

/-- `nom::combinator::all_consuming` (used in macros/src/format.rs:295) -/
def allConsuming (p : P A) : P A := fun s =>
  match p s with
  | .ok [] a => .ok [] a
  | .ok (_ :: _) _ => .error
  | r => r

end Stylish.Nom
