import Verif.Model.Expand
/-
The small part of Rust that the code generated by the macros is written in, with its name resolution and its meaning.
This is the meaning of the target language (external, see DESIGN.md: trusted base); the code itself, the
`quote!`s of /repo/macros/src/lib.rs and /repo/macros/src/to_tokens.rs, is in Model/Tokens.lean.

Names. The macro's own tokens have the span of the macro call, which is inside the `macro_rules!` of
/repo/core/src/lib.rs:91-123 and /repo/core/src/write.rs:136-169: the local variables they bind and mention are different
from those of the caller, even if the names are the same (`Site`), but all other names (functions, constants,
constructors, traits in scope) are looked up where the caller is. A path that starts with `#export` is looked up in the
module of /repo/core/src/lib.rs:50-62.
-/

namespace Stylish.Rust

open Format

/-- Whose local variables an identifier can mean. (`Span::call_site()` or
`.resolved_at(format_string.span())`, macros/src/lib.rs:174-177) -/
inductive Site where
  | ours
  | callers
  deriving DecidableEq, Repr

/-- An identifier (`proc_macro2::Ident`, external; as used in macros/src/lib.rs:174). -/
structure Ident where
  name : Str
  site : Site
  deriving DecidableEq, Repr

/-- Expressions; `Y` are the caller's expressions. (as used in macros/src/lib.rs:116-224 and to_tokens.rs) -/
inductive RExpr (Y : Type) where
  /-- An identifier. -/
  | ident (i : Ident)
  /-- `#export::a::b` -/
  | «export» (path : List Str)
  | lit (s : Str)
  | num (n : Nat)
  | bool (b : Bool)
  /-- Tokens of the caller. -/
  | user (e : Y)
  /-- `&e` -/
  | ref (e : RExpr Y)
  /-- `&mut e` -/
  | refMut (e : RExpr Y)
  /-- `(a, b,)` -/
  | tuple (es : List (RExpr Y))
  /-- `e.0` -/
  | field (e : RExpr Y) (i : Nat)
  /-- `f(a, b)` -/
  | call (f : RExpr Y) (args : List (RExpr Y))
  /-- `#export::S { a: x, b: y }`: the names and the values of the fields. -/
  | struct (path : List Str) (names : List Str) (values : List (RExpr Y))
  /-- `{ let mut x = e; rest }` -/
  | letMut (x : Ident) (e rest : RExpr Y)
  /-- `{ x.f = e; rest }` -/
  | setField (x : Ident) (f : Str) (e rest : RExpr Y)
  /-- `match e { x => rest }` -/
  | matchIdent (e : RExpr Y) (x : Ident) (rest : RExpr Y)
  /-- `match e { (x, y) => rest }` -/
  | matchTuple (e : RExpr Y) (xs : List Ident) (rest : RExpr Y)
  /-- `move |x: &mut #export::T| -> #export::fmt::Result { body }` -/
  | closure (x : Ident) (type : List Str) (body : RExpr Y)
  /-- `e?; rest`, in the body of a closure. -/
  | tryThen (e rest : RExpr Y)

/-- A value of the caller, and the formatting traits its type implements (`Stylish` is `stylish::Display`). The programs
for the other traits are never run. (what `&#arg` is in macros/src/lib.rs:189-198) -/
structure TypedVal where
  value : ArgVal
  impls : FormatTrait → Bool

/-- Values. A reference is the value it refers to, marked as a reference. (the values in macros/src/lib.rs:116-224 and to_tokens.rs) -/
inductive Val where
  | unit
  /-- A shared reference. -/
  | ref (v : Val)
  /-- A mutable reference. -/
  | refMut (v : Val)
  /-- A string literal, a `&str`. -/
  | str (s : Str)
  | nat (n : Nat)
  | bool (b : Bool)
  | color (c : Color)
  | intensity (i : Intensity)
  | align (a : Align)
  | sign (s : Sign)
  | debugHex (d : DebugHex)
  | optNone
  | optSome (v : Val)
  | tuple (vs : List Val)
  | styleDiff (d : StyleDiff)
  | formatterArgs (a : FormatterArgs)
  /-- A value of the caller. -/
  | arg (v : TypedVal)
  /-- The `#export::Formatter` the parameter of a closure refers to. -/
  | formatter
  /-- `Formatter::with_args` of it. -/
  | subFormatter (a : FormatterArgs) (d : StyleDiff)
  /-- The `#export::fmt::Formatter` the parameter of a closure refers to. -/
  | stdFormatter
  /-- A `fmt::Result` obtained by using the parameter `&mut #export::Formatter`: what is done with it, given what is
  done next. -/
  | result (k : (FmtResult → Disp) → Disp)
  /-- The same for `&mut #export::fmt::Formatter`, in tail position. -/
  | stdResult (f : StdOpts → StdProg)
  /-- A closure of a `&mut #export::Formatter`. -/
  | closure (d : Disp)
  /-- A closure of a `&mut #export::fmt::Formatter`. -/
  | stdClosure (f : StdOpts → StdProg)
  | stdFmt (f : StdFmt)
  | stdFmtDebug (f : StdFmtDebug)
  | stdFmtOther (f : StdFmtOther)
  | arguments (a : Arguments)

/-- What a name can mean at the place of the call, besides a local variable. (Rust reference: namespaces;
needed for to_tokens.rs:102, 107, 112) -/
inductive Item where
  /-- A function. A local variable of the same name may be introduced. -/
  | function (f : List Val → Option Val)
  /-- A tuple struct or tuple variant: can be called, and no local variable may have the name. -/
  | constructor (f : List Val → Option Val)
  /-- A constant, static, unit struct or unit variant: no local variable may have the name. -/
  | constant (v : Val)

/-- The place of a macro call: the local variables, innermost first, the names of items, and whether the trait
`core::default::Default` is in scope. (what the tokens of macros/src/lib.rs:209-224 are compiled in) -/
structure Scope where
  locals : List (Ident × Val)
  items : Str → Option Item
  defaultTrait : Bool

/-- The value an identifier stands for. (Rust reference: name resolution; for macros/src/lib.rs:138-223) -/
def Scope.lookup (sc : Scope) (i : Ident) : Option Val :=
  match sc.locals.lookup i with
  | some v => some v
  | none =>
    match sc.items i.name with
    | some (.constant v) => some v
    | _ => none

/-- Introduce a local variable. (Rust reference: identifier patterns; for macros/src/lib.rs:215, 217,
to_tokens.rs:99, 222, 224) -/
def Scope.bind (sc : Scope) (i : Ident) (v : Val) : Option Scope :=
  match sc.items i.name with
  | some (.constant _) => none
  | some (.constructor _) => none
  | _ => some { sc with locals := (i, v) :: sc.locals }

/-- Introduce several. (macros/src/lib.rs:215) -/
def Scope.bindAll (sc : Scope) : List Ident → List Val → Option Scope
  | [], [] => some sc
  | i :: is, v :: vs => (sc.bind i v).bind fun sc => sc.bindAll is vs
  | _, _ => none

/-- Call a function by its name. (Rust reference: name resolution; for to_tokens.rs:102, 107, 112) -/
def Scope.callByName (sc : Scope) (i : Ident) (vs : List Val) : Option Val :=
  match sc.locals.lookup i with
  | some _ => none
  | none =>
    match sc.items i.name with
    | some (.function f) => f vs
    | some (.constructor f) => f vs
    | _ => none

/-- What `Display::fmt` does for a value: the caller's, a reference, or one of the wrappers. (core/src/display.rs:52-60,
core/src/arguments.rs:62-76) -/
def Val.display : Val → Option Disp
  | .ref v => v.display
  | .arg v => if v.impls .Stylish then some (Display.fmt v.value) else none
  | .stdFmtDebug f => some (Display.fmt f)
  | .stdFmtOther f => some (Display.fmt f)
  | .arguments a => some (Display.fmt a)
  | _ => none

/-- core/src/lib.rs:53-61 the names in the module `𓀄` that are not macros. -/
def exported : List Str :=
  ["fmt", "Option", "Arguments", "StdFmt", "StdFmtDebug", "StdFmtOther", "Align", "DebugHex", "Formatter",
   "FormatterArgs", "Sign", "Background", "Color", "Display", "Foreground", "Intensity", "StyleDiff"].map str

/-- The traits of `core::fmt` (external). (core/src/lib.rs:53, macros/src/to_tokens.rs:196-204) -/
def fmtTraits : List (Str × FormatTrait) :=
  [(str "Display", .Display), (str "Debug", .Debug), (str "Octal", .Octal), (str "LowerHex", .LowerHex),
   (str "UpperHex", .UpperHex), (str "Pointer", .Pointer), (str "Binary", .Binary), (str "LowerExp", .LowerExp),
   (str "UpperExp", .UpperExp)]

/-- The unit variants that can be reached through the module. (style/src/lib.rs:17-56, core/src/formatter.rs:5-23,
`core::option::Option`) -/
def unitVariants : List (List Str × Val) :=
  [([str "Color", str "Black"], .color .Black), ([str "Color", str "Red"], .color .Red),
   ([str "Color", str "Green"], .color .Green), ([str "Color", str "Yellow"], .color .Yellow),
   ([str "Color", str "Blue"], .color .Blue), ([str "Color", str "Magenta"], .color .Magenta),
   ([str "Color", str "Cyan"], .color .Cyan), ([str "Color", str "White"], .color .White),
   ([str "Color", str "BrightBlack"], .color .BrightBlack), ([str "Color", str "BrightRed"], .color .BrightRed),
   ([str "Color", str "BrightGreen"], .color .BrightGreen), ([str "Color", str "BrightYellow"], .color .BrightYellow),
   ([str "Color", str "BrightBlue"], .color .BrightBlue), ([str "Color", str "BrightMagenta"], .color .BrightMagenta),
   ([str "Color", str "BrightCyan"], .color .BrightCyan), ([str "Color", str "BrightWhite"], .color .BrightWhite),
   ([str "Color", str "Default"], .color .Default),
   ([str "Intensity", str "Normal"], .intensity .Normal), ([str "Intensity", str "Bold"], .intensity .Bold),
   ([str "Intensity", str "Faint"], .intensity .Faint),
   ([str "Align", str "Left"], .align .Left), ([str "Align", str "Center"], .align .Center),
   ([str "Align", str "Right"], .align .Right),
   ([str "Sign", str "Plus"], .sign .Plus), ([str "Sign", str "Minus"], .sign .Minus),
   ([str "DebugHex", str "Lower"], .debugHex .Lower), ([str "DebugHex", str "Upper"], .debugHex .Upper),
   ([str "Option", str "None"], .optNone)]

/-- The value of a path into the module. (core/src/lib.rs:50-62) -/
def exportValue (path : List Str) : Option Val :=
  if exported.contains (path.headD []) then unitVariants.lookup path else none

/-- `Formatter::write_str`. (core/src/formatter.rs:142) -/
def fnWriteStr : List Val → Option Val
  | [.refMut .formatter, .str s] => some (.result fun k => .writeStr s k)
  | _ => none

/-- `Formatter::with_args`. (core/src/formatter.rs:106-116) -/
def fnWithArgs : List Val → Option Val
  | [.refMut .formatter, .ref (.formatterArgs a), .styleDiff d] => some (.subFormatter a d)
  | _ => none

/-- `Display::fmt`. (core/src/display.rs:52) -/
def fnDisplayFmt : List Val → Option Val
  | [.ref v, .refMut (.subFormatter a d)] => v.display.map fun body => .result fun k => .withinArgs a (.of d) body k
  | _ => none

/-- `StyleDiff::default`. (style/src/lib.rs:79 `#[derive(Default)]`) -/
def fnStyleDiffDefault : List Val → Option Val
  | [] => some (.styleDiff StyleDiff.default)
  | _ => none

/-- `Option::Some`. (core, external; macros/src/to_tokens.rs:19) -/
def fnSome : List Val → Option Val
  | [v] => some (.optSome v)
  | _ => none

/-- `StdFmtDebug(..)`. (core/src/arguments.rs:36-40) -/
def fnStdFmtDebug : List Val → Option Val
  | [.stdFmt f] => some (.stdFmtDebug ⟨f⟩)
  | _ => none

/-- `StdFmtOther(..)`. (core/src/arguments.rs:27-31) -/
def fnStdFmtOther : List Val → Option Val
  | [.stdFmt f] => some (.stdFmtOther ⟨f⟩)
  | _ => none

/-- `fmt::Result::Ok`. (core, external; macros/src/lib.rs:219) -/
def fnOk : List Val → Option Val
  | [.tuple []] => some (.result fun k => k .ok)
  | _ => none

/-- `fmt::Trait::fmt` for a value of the caller. (core, external; macros/src/to_tokens.rs:225) -/
def fnStdFmt (tr : FormatTrait) : List Val → Option Val
  | [.ref (.arg v), .refMut .stdFormatter] => if v.impls tr then some (.stdResult (v.value.std tr)) else none
  | _ => none

/-- The functions in the module that the macros use. (core/src/lib.rs:50-62) -/
def functions : List (List Str × (List Val → Option Val)) :=
  [([str "Formatter", str "write_str"], fnWriteStr), ([str "Formatter", str "with_args"], fnWithArgs),
   ([str "Display", str "fmt"], fnDisplayFmt), ([str "StyleDiff", str "default"], fnStyleDiffDefault),
   ([str "Option", str "Some"], fnSome), ([str "StdFmtDebug"], fnStdFmtDebug), ([str "StdFmtOther"], fnStdFmtOther),
   ([str "fmt", str "Result", str "Ok"], fnOk)] ++
  fmtTraits.map fun t => ([str "fmt", t.1, str "fmt"], fnStdFmt t.2)

/-- Call a function in the module. `default` is a method of the trait `Default`, which has to be in scope.
(core/src/lib.rs:50-62) -/
def callExport (sc : Scope) (path : List Str) (vs : List Val) : Option Val :=
  if exported.contains (path.headD []) ∧ (path.getLastD [] = str "default" → sc.defaultTrait = true) then
    (functions.lookup path).bind fun f => f vs
  else none

/-- A value as an optional number, alignment, etc. (the types of the fields in core/src/formatter.rs:27-35) -/
def Val.toOption {A : Type} (p : Val → Option A) : Val → Option (Option A)
  | .optNone => some none
  | .optSome v => (p v).map some
  | _ => none

/-- (core/src/formatter.rs:28-34) -/
def Val.toNat : Val → Option Nat | .ref (.nat n) => some n | _ => none
/-- (core/src/formatter.rs:28-34) -/
def Val.toBool : Val → Option Bool | .bool n => some n | _ => none
/-- (core/src/formatter.rs:28-34) -/
def Val.toAlign : Val → Option Align | .align n => some n | _ => none
/-- (core/src/formatter.rs:28-34) -/
def Val.toSign : Val → Option Sign | .sign n => some n | _ => none
/-- (core/src/formatter.rs:28-34) -/
def Val.toDebugHex : Val → Option DebugHex | .debugHex n => some n | _ => none
/-- (style/src/lib.rs:80-88) -/
def Val.toColor : Val → Option Color | .color c => some c | _ => none
/-- (style/src/lib.rs:80-88) -/
def Val.toIntensity : Val → Option Intensity | .intensity c => some c | _ => none

/-- `FormatterArgs { .. }`. (core/src/formatter.rs:27-35) -/
def makeFormatterArgs (fields : List (Str × Val)) : Option FormatterArgs := do
  let align ← (fields.lookup (str "align")).bind (·.toOption Val.toAlign)
  let sign ← (fields.lookup (str "sign")).bind (·.toOption Val.toSign)
  let alternate ← (fields.lookup (str "alternate")).bind Val.toBool
  let zero ← (fields.lookup (str "zero")).bind Val.toBool
  let width ← (fields.lookup (str "width")).bind (·.toOption Val.toNat)
  let precision ← (fields.lookup (str "precision")).bind (·.toOption Val.toNat)
  let debugHex ← (fields.lookup (str "debug_hex")).bind (·.toOption Val.toDebugHex)
  if fields.length = 7 then some ⟨align, sign, alternate, zero, width, precision, debugHex⟩ else none

/-- `Arguments { f: .. }`. (core/src/arguments.rs:56-60) -/
def makeArguments : List (Str × Val) → Option Arguments
  | [(name, .ref (.closure d))] => if name = str "f" then some ⟨d⟩ else none
  | _ => none

/-- `StdFmt { f: .. }`. (core/src/arguments.rs:5-9) -/
def makeStdFmt : List (Str × Val) → Option StdFmt
  | [(name, .ref (.stdClosure f))] => if name = str "f" then some ⟨f⟩ else none
  | _ => none

/-- A struct expression with a path into the module. (core/src/lib.rs:50-62) -/
def makeStruct (path : List Str) (fields : List (Str × Val)) : Option Val :=
  if ¬ exported.contains (path.headD []) then none
  else if path = [str "Arguments"] then (makeArguments fields).map .arguments
  else if path = [str "StdFmt"] then (makeStdFmt fields).map .stdFmt
  else if path = [str "FormatterArgs"] then (makeFormatterArgs fields).map .formatterArgs
  else none

/-- `v.f = w`. (style/src/lib.rs:80-88, the public fields of `StyleDiff`) -/
def Val.set (v : Val) (f : Str) (w : Val) : Option Val :=
  match v with
  | .styleDiff d =>
    if f = Stylish.str "foreground" then (w.toOption Val.toColor).map fun c => .styleDiff { d with foreground := c }
    else if f = Stylish.str "background" then (w.toOption Val.toColor).map fun c => .styleDiff { d with background := c }
    else if f = Stylish.str "intensity" then (w.toOption Val.toIntensity).map fun i => .styleDiff { d with intensity := i }
    else none
  | _ => none

/-- What a closure parameter of the given type is. (macros/src/lib.rs:217, to_tokens.rs:224) -/
def paramOf (type : List Str) : Option Val :=
  if type = [str "Formatter"] then some (.refMut .formatter)
  else if type = [str "fmt", str "Formatter"] then some (.refMut .stdFormatter)
  else none

/-- A closure, given what its body evaluates to. (macros/src/lib.rs:217, to_tokens.rs:224) -/
def closureOf : Val → Option Val
  | .result k => some (.closure (k .done))
  | .stdResult f => some (.stdClosure f)
  | _ => none

/-- What is done after a `?`. (macros/src/lib.rs:138, 198) -/
def afterTry (rest return_ : Disp) : FmtResult → Disp
  | .ok => rest
  | .err => return_

/-- `e?; rest`. (macros/src/lib.rs:138, 189-198, 218) -/
def seqTry : Val → Val → Option Val
  | .result k, .result rest => some (.result fun fin => k (afterTry (rest fin) (fin .err)))
  | _, _ => none

variable {Y St : Type}

/-- What the caller's expressions mean, given the caller's local variables, with effects on a state.
(the expressions of macros/src/lib.rs:116, 126) -/
abbrev UserExprs (Y St : Type) := List (Ident × Val) → Y → St → Option (Val × St)

mutual
/-- Evaluate an expression. `none`: it does not compile, or is not covered.
(Rust reference: expressions; for macros/src/lib.rs:209-224) -/
def eval (u : UserExprs Y St) (sc : Scope) : RExpr Y → St → Option (Val × St)
  | .ident i, st => (sc.lookup i).map fun v => (v, st)
  | .«export» path, st => (exportValue path).map fun v => (v, st)
  | .lit s, st => some (.str s, st)
  | .num n, st => some (.nat n, st)
  | .bool b, st => some (.bool b, st)
  | .user e, st => u (sc.locals.filter fun b => b.1.site = .callers) e st
  | .ref e, st => do
    let (v, st) ← eval u sc e st
    return (.ref v, st)
  | .refMut e, st => do
    let (v, st) ← eval u sc e st
    return (.refMut v, st)
  | .tuple es, st => do
    let (vs, st) ← evalList u sc es st
    return (.tuple vs, st)
  | .field e i, st => do
    let (v, st) ← eval u sc e st
    match v with
    | .tuple vs => (vs[i]?).map fun v => (v, st)
    | _ => none
  | .call (.ident i) args, st => do
    let (vs, st) ← evalList u sc args st
    let v ← sc.callByName i vs
    return (v, st)
  | .call (.«export» path) args, st => do
    let (vs, st) ← evalList u sc args st
    let v ← callExport sc path vs
    return (v, st)
  | .call _ _, _ => none
  | .struct path names values, st => do
    let (vs, st) ← evalList u sc values st
    let v ← makeStruct path (names.zip vs)
    return (v, st)
  | .letMut x e rest, st => do
    let (v, st) ← eval u sc e st
    let sc ← sc.bind x v
    eval u sc rest st
  | .setField x f e rest, st => do
    let (w, st) ← eval u sc e st
    let v ← sc.locals.lookup x
    let v ← v.set f w
    eval u { sc with locals := (x, v) :: sc.locals } rest st
  | .matchIdent e x rest, st => do
    let (v, st) ← eval u sc e st
    let sc ← sc.bind x v
    eval u sc rest st
  | .matchTuple e xs rest, st => do
    let (v, st) ← eval u sc e st
    match v with
    | .tuple vs => do
      let sc ← sc.bindAll xs vs
      eval u sc rest st
    | _ => none
  | .closure x type body, st => do
    let p ← paramOf type
    let sc ← sc.bind x p
    let (v, _) ← eval (fun _ _ _ => none) sc body st
    let v ← closureOf v
    return (v, st)
  | .tryThen e rest, st => do
    let (v, st) ← eval u sc e st
    let (w, st) ← eval u sc rest st
    let v ← seqTry v w
    return (v, st)
/-- Evaluate expressions from left to right. (Rust reference: evaluation order of operands) -/
def evalList (u : UserExprs Y St) (sc : Scope) : List (RExpr Y) → St → Option (List Val × St)
  | [], st => some ([], st)
  | e :: es, st => do
    let (v, st) ← eval u sc e st
    let (vs, st) ← evalList u sc es st
    return (v :: vs, st)
end

end Stylish.Rust
