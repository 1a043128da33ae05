import Verif.Model.Formatter
/-
Model of /repo/core/src/std_compat.rs (the `std_write!` macro and `StdProxy`) and of the `StdFmt*` part
of /repo/core/src/arguments.rs.

`std_write!` generates a `match` over the formatter options; each arm calls `core::write!` with a std
format string assembled by `concat!`. The generation is modelled step by step as the macro does it,
producing the list of arms; the std format string of the selected arm is then read by a reader of
std's `format_spec` syntax (external: std::fmt, "Syntax").
-/

namespace Stylish

/-- What a std formatting trait sees: the options of `core::fmt::Formatter` (external), plus whether
the `Display` or the `Debug` trait method is called. The fill is always `' '` (see `readStdSpec`).
(what `core::write!` sets up in core/src/std_compat.rs:7) -/
structure StdOpts where
  fill : Char
  align : Option Align
  sign : Option Sign
  alternate : Bool
  zero : Bool
  width : Option Nat
  precision : Option Nat
  debugHex : Option DebugHex
  debug : Bool
  deriving DecidableEq, Repr

/-! ### A reader for std's `format_spec` (external) -/

/-- Is this character an alignment marker? (std reading the string of core/src/std_compat.rs:7) -/
def stdAlign : Char → Option Align
  | '<' => some .Left
  | '^' => some .Center
  | '>' => some .Right
  | _ => none

/-- `[[fill]align]` (std reading the string of core/src/std_compat.rs:7) -/
def readStdAlign : Str → (Char × Option Align) × Str
  | [] => ((' ', none), [])
  | [c] => match stdAlign c with
    | some a => ((' ', some a), [])
    | none => ((' ', none), [c])
  | c :: d :: rest => match stdAlign d with
    | some a => ((c, some a), rest)
    | none => match stdAlign c with
      | some a => ((' ', some a), d :: rest)
      | none => ((' ', none), c :: d :: rest)

/-- `[sign]` (std reading the string of core/src/std_compat.rs:7) -/
def readStdSign : Str → Option Sign × Str
  | '+' :: rest => (some .Plus, rest)
  | '-' :: rest => (some .Minus, rest)
  | s => (none, s)

/-- `['#']` (std reading the string of core/src/std_compat.rs:7) -/
def readStdAlternate : Str → Bool × Str
  | '#' :: rest => (true, rest)
  | s => (false, s)

/-- `['0']`; std reads `0$` as a count, not as the flag.
(std reading the string of core/src/std_compat.rs:7) -/
def readStdZero : Str → Bool × Str
  | '0' :: '$' :: rest => (false, '0' :: '$' :: rest)
  | '0' :: rest => (true, rest)
  | s => (false, s)

/-- A character of an (ASCII) identifier. (std reading the string of core/src/std_compat.rs:7) -/
def isStdIdentChar (c : Char) : Bool := c.isAlphanum || c == '_'

/-- `identifier '$'`, looked up among the named arguments of the call.
(std reading the string of core/src/std_compat.rs:7) -/
def readStdNamedCount (named : List (Str × Nat)) (s : Str) : Option Nat × Str :=
  let name := s.takeWhile isStdIdentChar
  match s.dropWhile isStdIdentChar with
  | '$' :: rest =>
    match named.lookup name with
    | some n => (some n, rest)
    | none => (none, s)
  | _ => (none, s)

/-- `['.' precision]` (std reading the string of core/src/std_compat.rs:7) -/
def readStdPrecision (named : List (Str × Nat)) : Str → Option Nat × Str
  | '.' :: rest => readStdNamedCount named rest
  | s => (none, s)

/-- `type`: `''`, `'?'`, `'x?'` or `'X?'` (std reading the string of core/src/std_compat.rs:7) -/
def readStdType : Str → Option (Bool × Option DebugHex)
  | [] => some (false, none)
  | ['?'] => some (true, none)
  | ['x', '?'] => some (true, some .Lower)
  | ['X', '?'] => some (true, some .Upper)
  | _ => none

/-- Read a std `format_spec` (only named counts and the types `''`/`?`/`x?`/`X?` occur here; anything
else is `none`, a compile error). (std reading the string of core/src/std_compat.rs:7) -/
def readStdSpec (named : List (Str × Nat)) (s : Str) : Option StdOpts :=
  let ((fill, align), s) := readStdAlign s
  let (sign, s) := readStdSign s
  let (alternate, s) := readStdAlternate s
  let (zero, s) := readStdZero s
  let (width, s) := readStdNamedCount named s
  let (precision, s) := readStdPrecision named s
  match readStdType s with
  | some (debug, debugHex) =>
    some { fill, align, sign, alternate, zero, width, precision, debugHex, debug }
  | none => none

/-! ### The arms generated by `std_write!` -/

/-- A pattern on one field of `FormatterArgs`. (core/src/std_compat.rs:15-69) -/
inductive OptPat (α : Type) where
  | wild            -- `_`, or the field is not mentioned yet
  | isNone          -- `None`
  | isSome          -- `Some(ident)`, binding
  | exact (a : α)   -- `Some(Constant)` / a `bool` literal
  deriving DecidableEq, Repr

/-- Does the pattern match the `Option` field? (core/src/std_compat.rs:4-6) -/
def OptPat.matchesOpt {α : Type} [DecidableEq α] : OptPat α → Option α → Bool
  | .wild, _ => true
  | .isNone, none => true
  | .isNone, some _ => false
  | .isSome, some _ => true
  | .isSome, none => false
  | .exact a, some b => a = b
  | .exact _, none => false

/-- Does the pattern match the `bool` field? (core/src/std_compat.rs:4-6) -/
def OptPat.matchesBool : OptPat Bool → Bool → Bool
  | .exact a, b => a == b
  | .wild, _ => true
  | _, _ => false

/-- One arm `{ fields } => ((strings,), (args),)` of the accumulator of `std_write!`.
(core/src/std_compat.rs:2) -/
structure Arm where
  align : OptPat Align := .wild
  sign : OptPat Sign := .wild
  alternate : OptPat Bool := .wild
  zero : OptPat Bool := .wild
  width : OptPat Nat := .wild
  precision : OptPat Nat := .wild
  debugHex : OptPat DebugHex := .wild
  strings : List String
  /-- the named arguments passed: `precision=precision` / `width=width` -/
  args : List String
  deriving DecidableEq, Repr

/-- Which `std_write!` family is used (std_compat.rs:58-71). -/
inductive StdKind where | Other | Debug
  deriving DecidableEq, Repr

/-- core/src/std_compat.rs:60-71 the initial arms. -/
def armsInit : StdKind → List Arm
  | .Other => [{ debugHex := .wild, strings := [""], args := [] }]
  | .Debug =>
    [ { debugHex := .isNone, strings := ["?"], args := [] },
      { debugHex := .exact .Lower, strings := ["x?"], args := [] },
      { debugHex := .exact .Upper, strings := ["X?"], args := [] } ]

/-- core/src/std_compat.rs:13-18 the `precision` step. -/
def armsPrecision (arms : List Arm) : List Arm :=
  arms.map (fun a => { a with precision := .isNone }) ++
  arms.map (fun a => { a with precision := .isSome, strings := ".precision$" :: a.strings,
                              args := "precision" :: a.args })

/-- core/src/std_compat.rs:20-25 the `width` step. -/
def armsWidth (arms : List Arm) : List Arm :=
  arms.map (fun a => { a with width := .isNone }) ++
  arms.map (fun a => { a with width := .isSome, strings := "width$" :: a.strings,
                              args := "width" :: a.args })

/-- core/src/std_compat.rs:27-32 the `zero` step. -/
def armsZero (arms : List Arm) : List Arm :=
  arms.map (fun a => { a with zero := .exact false }) ++
  arms.map (fun a => { a with zero := .exact true, strings := "0" :: a.strings })

/-- core/src/std_compat.rs:34-39 the `alternate` step. -/
def armsAlternate (arms : List Arm) : List Arm :=
  arms.map (fun a => { a with alternate := .exact false }) ++
  arms.map (fun a => { a with alternate := .exact true, strings := "#" :: a.strings })

/-- core/src/std_compat.rs:41-47 the `sign` step. -/
def armsSign (arms : List Arm) : List Arm :=
  arms.map (fun a => { a with sign := .isNone }) ++
  arms.map (fun a => { a with sign := .exact .Plus, strings := "+" :: a.strings }) ++
  arms.map (fun a => { a with sign := .exact .Minus, strings := "-" :: a.strings })

/-- core/src/std_compat.rs:49-56 the `align` step. -/
def armsAlign (arms : List Arm) : List Arm :=
  arms.map (fun a => { a with align := .isNone }) ++
  arms.map (fun a => { a with align := .exact .Left, strings := "<" :: a.strings }) ++
  arms.map (fun a => { a with align := .exact .Center, strings := "^" :: a.strings }) ++
  arms.map (fun a => { a with align := .exact .Right, strings := ">" :: a.strings })

/-- core/src/std_compat.rs:73-75 the entry point: the flags are processed in the order
`precision width zero alternate sign align`. -/
def arms (kind : StdKind) : List Arm :=
  armsAlign (armsSign (armsAlternate (armsZero (armsWidth (armsPrecision (armsInit kind))))))

/-- Does the arm's pattern match (core/src/std_compat.rs:4-6)? -/
def Arm.matches (a : Arm) (f : FormatterArgs) : Bool :=
  a.align.matchesOpt f.align && a.sign.matchesOpt f.sign &&
  a.alternate.matchesBool f.alternate && a.zero.matchesBool f.zero &&
  a.width.matchesOpt f.width && a.precision.matchesOpt f.precision &&
  a.debugHex.matchesOpt f.debugHex

/-- The named arguments an arm passes, with the values bound by its patterns.
(core/src/std_compat.rs:7, 16, 23) -/
def Arm.named (a : Arm) (f : FormatterArgs) : List (Str × Nat) :=
  a.args.filterMap fun name =>
    if name = "width" then f.width.map fun n => (str name, n)
    else if name = "precision" then f.precision.map fun n => (str name, n)
    else none

/-- core/src/std_compat.rs:7 the format spec of the arm: `concat!("{:", strings.., "}")` without the
surrounding `{:` and `}`. -/
def Arm.spec (a : Arm) : Str := (a.strings.map str).flatten

/-- core/src/std_compat.rs:4-9 the `match`: the first matching arm. -/
def selectArm (kind : StdKind) (f : FormatterArgs) : Option Arm :=
  (arms kind).find? (fun a => a.matches f)

/-- The std options the argument is formatted with. `none` would be a compile error of the generated
`match` / `core::write!`. (core/src/std_compat.rs:4-9) -/
def stdOptsOf (kind : StdKind) (f : FormatterArgs) : Option StdOpts :=
  (selectArm kind f).bind fun a => readStdSpec (a.named f) a.spec

/-- The body of a std formatting trait method (`fn fmt(&self, f: &mut core::fmt::Formatter)`, external
user/std code): an arbitrary terminating program that writes strings to the std formatter.
(the argument `*$val` of core/src/std_compat.rs:7) -/
inductive StdProg where
  | done (r : FmtResult)
  | panic
  | write (s : Str) (k : FmtResult → StdProg)

/-- core/src/std_compat.rs:78-84 `StdProxy`: each `write_str` of the std formatter is a
`Formatter::write_str` of the stylish formatter. -/
def StdProg.viaProxy : StdProg → Disp
  | .done r => .done r
  | .panic => .panic
  | .write s k => .writeStr s (fun r => (k r).viaProxy)

/-- core/src/arguments.rs:5-23 `struct StdFmt`: a std formatting function. -/
structure StdFmt where
  f : StdOpts → StdProg

/-- core/src/std_compat.rs:2-11 `std_write!(f, kind, arg)`: the non-exhaustive case cannot compile. -/
def stdWrite (kind : StdKind) (arg : StdFmt) : Disp :=
  .inspect fun _ format =>
    match stdOptsOf kind format with
    | some opts => (arg.f opts).viaProxy
    | none => .panic

/-- core/src/arguments.rs:28-32 `struct StdFmtOther`. -/
structure StdFmtOther where
  inner : StdFmt

/-- core/src/arguments.rs:37-41 `struct StdFmtDebug`. -/
structure StdFmtDebug where
  inner : StdFmt

/-- core/src/arguments.rs:62-68 `impl Display for StdFmtOther`. -/
instance : Display StdFmtOther := ⟨fun self => stdWrite .Other self.inner⟩

/-- core/src/arguments.rs:70-76 `impl Display for StdFmtDebug`. -/
instance : Display StdFmtDebug := ⟨fun self => stdWrite .Debug self.inner⟩

end Stylish
