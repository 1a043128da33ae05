import Verif.Spec.Macro
/-
Specification of when two format strings are spellings of the same thing (C56), and of format strings that can
be put one after the other (C57).
-/

namespace Stylish.Spec.Syntax

/-- Two specifications that say the same: same type, alignment, sign and flags, width and precision of the same
value, and the same last setting of each attribute. They may differ in a fill of a space (the default), in
leading zeros of a number, in the order of attributes and in settings that are overridden. -/
structure SpecAlike (s s' : SpecSyn) : Prop where
  ty : s.ty = s'.ty
  align : s.align.map Prod.snd = s'.align.map Prod.snd
  sign : s.sign = s'.sign
  alternate : s.alternate = s'.alternate
  zero : s.zero = s'.zero
  width : s.width.map CountSyn.toCount = s'.width.map CountSyn.toCount
  precision : s.precision.map PrecisionSyn.toCount = s'.precision.map PrecisionSyn.toCount
  fg : (s.attrList.filterMap Attr.fg?).getLast? = (s'.attrList.filterMap Attr.fg?).getLast?
  bg : (s.attrList.filterMap Attr.bg?).getLast? = (s'.attrList.filterMap Attr.bg?).getLast?
  intensity : (s.attrList.filterMap Attr.intensity?).getLast? =
    (s'.attrList.filterMap Attr.intensity?).getLast?

/-- The argument a placeholder refers to, by position or by name; `k` placeholders without a reference are
before it. -/
def target (k : Nat) : Option ArgRef → Nat ⊕ Str
  | none => .inl k
  | some (.index ds) => .inl (numeralValue ds)
  | some (.name n) => .inr n

/-- Two trees that are spellings of the same thing: they have the same text, and their placeholders refer to the
same arguments and have specifications that say the same. `k` and `k'` count the placeholders without a
reference before. -/
inductive Alike : Nat → Nat → List PieceSyn → List PieceSyn → Prop
  | nil (k k') : Alike k k' [] []
  | text (s) {k k' t t'} : Alike k k' t t' → Alike k k' (.text s :: t) (.text s :: t')
  | openBrace {k k' t t'} : Alike k k' t t' → Alike k k' (.openBrace :: t) (.openBrace :: t')
  | closeBrace {k k' t t'} : Alike k k' t t' → Alike k k' (.closeBrace :: t) (.closeBrace :: t')
  | arg {k k' t t' ref ref' spec spec'} : target k ref = target k' ref' → SpecAlike (specOf spec) (specOf spec') →
      Alike (if ref = none then k + 1 else k) (if ref' = none then k' + 1 else k') t t' →
      Alike k k' (.arg ref spec :: t) (.arg ref' spec' :: t')

/-- `t'` is `t` with the number of the argument written in each placeholder that has no reference; `k` such
placeholders are before. -/
inductive Numbered : Nat → List PieceSyn → List PieceSyn → Prop
  | nil (k) : Numbered k [] []
  | keep {k p t t'} : p.isBare = false → Numbered k t t' → Numbered k (p :: t) (p :: t')
  | number {k ds spec t t'} : Numeral ds → numeralValue ds = k → Numbered (k + 1) t t' →
      Numbered k (.arg none spec :: t) (.arg (some (.index ds)) spec :: t')

/-- Two calls that do the same: both compile or neither does, and if they do, running the results on any
formatter, whose writer may fail at any point, makes the same calls to the writer and returns the same. -/
def SameEffect (c c' : Compile Arguments) : Prop :=
  ((∃ x, c = .ok x) ↔ ∃ x, c' = .ok x) ∧
  ∀ x x', c = .ok x → c' = .ok x' → ∀ (W : Type) [Write W] (f : Formatter W),
    (Display.fmt x).run f = (Display.fmt x').run f

end Stylish.Spec.Syntax
