import Verif.Model.Expand
import Verif.Spec.Grammar
import Verif.Spec.Std
import Verif.Spec.Text
/-
Specification of the macros: which argument a placeholder shows, when a call is accepted, and what a
format string writes. Everything is said directly of the syntax tree of the format string and the list of
macro arguments.
-/

namespace Stylish.Spec.Syntax

variable {X : Type}

/-! ### Arguments -/

/-- The positional arguments, in order. -/
def positionals (args : List (MacroArg X)) : List X :=
  args.filterMap fun
    | .positional e => some e
    | .named _ _ => none

/-- The named arguments, in order. -/
def nameds (args : List (MacroArg X)) : List (Str × X) :=
  args.filterMap fun
    | .positional _ => none
    | .named n e => some (n, e)

/-- The (last) named argument of that name. -/
def lastNamed (args : List (MacroArg X)) (name : Str) : Option X :=
  (((nameds args).filter (fun p => p.1 = name)).getLast?).map Prod.snd

/-- `{}` or `{:..}`: a placeholder without an explicit reference. -/
def PieceSyn.isBare : PieceSyn → Bool
  | .arg none _ => true
  | _ => false

/-- The number of placeholders without an explicit reference. -/
def bareCount (t : List PieceSyn) : Nat := t.countP PieceSyn.isBare

/-- The value shown by a placeholder with the given reference, `before` being the pieces before it. -/
def valueFor (args : List (MacroArg X)) (scope : Str → X) (before : List PieceSyn) :
    Option ArgRef → Option X
  | none => (positionals args)[bareCount before]?
  | some (.index ds) => (positionals args)[numeralValue ds]?
  | some (.name n) => some ((lastNamed args n).getD (scope n))

/-! ### What is written -/

/-- The number of a width or precision written as a number. -/
def CountSyn.literal : CountSyn → Option Nat
  | .lit ds => some (numeralValue ds)
  | .param _ => none

def PrecisionSyn.literal : PrecisionSyn → Option Nat
  | .count c => c.literal
  | .star => none

/-- The formatter options a specification says. -/
def SpecSyn.options (s : SpecSyn) : FormatterArgs :=
  { align := s.align.map Prod.snd
    sign := s.sign
    alternate := s.alternate
    zero := s.zero
    width := s.width.bind CountSyn.literal
    precision := s.precision.bind PrecisionSyn.literal
    debugHex := s.ty.debugHex }

/-- The attribute list of a specification (empty if there is none). -/
def SpecSyn.attrList (s : SpecSyn) : List Attr :=
  match s.attrs with
  | none => []
  | some a => a.attrs

/-- A placeholder without a specification is one with the empty specification. -/
def specOf (spec : Option SpecSyn) : SpecSyn := spec.getD {}

/-- The style of a placeholder in a surrounding style, as implemented: the last setting of each attribute,
unless it is `default`/`normal`, replaces the surrounding one. -/
def SpecSyn.style (s : SpecSyn) (surrounding : Style) : Style :=
  { foreground := (((s.attrList.filterMap Attr.fg?).getLast?).filter (· ≠ .Default)).getD surrounding.foreground
    background := (((s.attrList.filterMap Attr.bg?).getLast?).filter (· ≠ .Default)).getD surrounding.background
    intensity := (((s.attrList.filterMap Attr.intensity?).getLast?).filter (· ≠ .Normal)).getD surrounding.intensity }

def Ty.stdKind : Ty → StdKind
  | .debug => .Debug
  | .lowerHexDebug => .Debug
  | .upperHexDebug => .Debug
  | _ => .Other

/-- What one argument writes in a placeholder with the given specification: for `s` the value's own
`stylish::Display` output, else the output of the std trait, all of it in the placeholder's style. -/
def argOutput (v : ArgVal) (s : SpecSyn) (surrounding : Style) : List Chunk × Res FmtError Unit :=
  match s.ty with
  | .stylish => writes v.stylish (s.style surrounding) s.options
  | ty =>
    let out := stdWrites (v.std ty.trait (stdView ty.stdKind s.options))
    (out.1.map (fun text => (text, s.style surrounding)), out.2)

/-- What one piece writes. -/
def pieceOutput (args : List (MacroArg ArgVal)) (scope : Str → ArgVal) (before : List PieceSyn)
    (st : Style) : PieceSyn → List Chunk × Res FmtError Unit
  | .text s => ([(s, st)], .ok ())
  | .openBrace => ([(['{'], st)], .ok ())
  | .closeBrace => ([(['}'], st)], .ok ())
  | .arg ref spec =>
    match valueFor args scope before ref with
    | some v => argOutput v (specOf spec) st
    | none => ([], .panic)

/-- What the pieces write, one after the other, stopping at the first that does not return `Ok`. -/
def treeOutput (args : List (MacroArg ArgVal)) (scope : Str → ArgVal) (st : Style)
    (before : List PieceSyn) : List PieceSyn → List Chunk × Res FmtError Unit
  | [] => ([], .ok ())
  | p :: rest =>
    match pieceOutput args scope before st p with
    | (out, .ok ()) =>
      (out ++ (treeOutput args scope st (before ++ [p]) rest).1,
        (treeOutput args scope st (before ++ [p]) rest).2)
    | (out, stop) => (out, stop)

/-- Running one argument on a writer in a placeholder with the given specification. -/
def argRun {W : Type} [Write W] (v : ArgVal) (s : SpecSyn) (surrounding : Style) :
    Act W FmtError Unit := fun w =>
  match s.ty with
  | .stylish =>
    let (r, f) := v.stylish.run ⟨s.style surrounding, s.options, w⟩
    (r, f.write)
  | ty =>
    stdRun (fun text => Write.writeStr text (s.style surrounding))
      (v.std ty.trait (stdView ty.stdKind s.options)) w

/-- Running one piece on a writer. -/
def pieceRun {W : Type} [Write W] (args : List (MacroArg ArgVal)) (scope : Str → ArgVal)
    (before : List PieceSyn) (st : Style) : PieceSyn → Act W FmtError Unit
  | .text s => Write.writeStr s st
  | .openBrace => Write.writeStr ['{'] st
  | .closeBrace => Write.writeStr ['}'] st
  | .arg ref spec =>
    match valueFor args scope before ref with
    | some v => argRun v (specOf spec) st
    | none => fun w => (.panic, w)

/-- Running the pieces on a writer one after the other, stopping at the first that does not return `Ok`. -/
def treeRun {W : Type} [Write W] (args : List (MacroArg ArgVal)) (scope : Str → ArgVal) (st : Style)
    (before : List PieceSyn) : List PieceSyn → Act W FmtError Unit
  | [] => fun w => (.ok (), w)
  | p :: rest => fun w =>
    match pieceRun args scope before st p w with
    | (.ok (), w') => treeRun args scope st (before ++ [p]) rest w'
    | stop => stop

/-! ### When a call is accepted -/

/-- All positional arguments come before all named ones. -/
def PositionalFirst (args : List (MacroArg X)) : Prop :=
  ∃ (es : List X) (ns : List (Str × X)),
    args = es.map .positional ++ ns.map (fun p => .named p.1 p.2)

/-- The reference of a placeholder exists: there are enough positional arguments; a name is that of a named
argument, or else can be written as a (raw) identifier. -/
def RefExists (args : List (MacroArg X)) (before : List PieceSyn) : Option ArgRef → Prop
  | none => bareCount before < (positionals args).length
  | some (.index ds) => numeralValue ds < (positionals args).length
  | some (.name n) => n ∈ (nameds args).map Prod.fst ∨
      n ∉ [str "_", str "super", str "self", str "Self", str "crate"]

/-- Width and precision are not parameters (`name$`), which are not implemented. -/
def SpecSyn.NoParams (s : SpecSyn) : Prop :=
  (∀ r, s.width ≠ some (.param r)) ∧ (∀ r, s.precision ≠ some (.count (.param r)))

/-- Every placeholder's reference exists and it has no `$` counts. -/
def RefsOk (args : List (MacroArg X)) (t : List PieceSyn) : Prop :=
  ∀ before ref spec after, t = before ++ .arg ref spec :: after →
    RefExists args before ref ∧ (specOf spec).NoParams

/-- Some placeholder shows positional argument `i`. -/
def UsesPositional (t : List PieceSyn) (i : Nat) : Prop :=
  ∃ before ref spec after, t = before ++ .arg ref spec :: after ∧
    (ref = none ∧ i = bareCount before ∨ ∃ ds, ref = some (.index ds) ∧ i = numeralValue ds)

/-- Some placeholder refers to the name. -/
def UsesName (t : List PieceSyn) (n : Str) : Prop :=
  ∃ spec, PieceSyn.arg (some (.name n)) spec ∈ t

/-- Every argument is used. -/
def AllUsed (args : List (MacroArg X)) (t : List PieceSyn) : Prop :=
  (∀ i < (positionals args).length, UsesPositional t i) ∧
  (∀ n ∈ (nameds args).map Prod.fst, UsesName t n)

/-- The calls that compile. -/
def Accepted (E : Env) (format : Str) (args : List (MacroArg X)) : Prop :=
  ∃ t, print t = format ∧ Documented E t ∧ Supported E t ∧ PositionalFirst args ∧ RefsOk args t ∧
    AllUsed args t

/-! ### A call as a whole -/

/-- `t` is a reading of the format string. -/
def Reads (E : Env) (format : Str) (t : List PieceSyn) : Prop :=
  print t = format ∧ Documented E t ∧ Supported E t

/-- Evaluate the argument expressions in the order written, each once. -/
def evalArgs {St V : Type} : List (MacroArg (Expr St V)) → St → List (MacroArg V) × St
  | [], s => ([], s)
  | .positional e :: rest, s =>
    let (v, s) := e s
    let (vs, s) := evalArgs rest s
    (.positional v :: vs, s)
  | .named n e :: rest, s =>
    let (v, s) := e s
    let (vs, s) := evalArgs rest s
    (.named n v :: vs, s)

end Stylish.Spec.Syntax
