import Verif.Model.Basic
/-
Model of /repo/style/src/lib.rs.
-/

namespace Stylish

/-- style/src/lib.rs:18-53 `enum Color`. (`#[non_exhaustive]` only concerns downstream crates; all
variants that exist are listed.) -/
inductive Color where
  | Black | Red | Green | Yellow | Blue | Magenta | Cyan | White
  | BrightBlack | BrightRed | BrightGreen | BrightYellow
  | BrightBlue | BrightMagenta | BrightCyan | BrightWhite
  | Default
  deriving DecidableEq, Repr

/-- style/src/lib.rs:58-65 `enum Intensity`. -/
inductive Intensity where
  | Normal | Bold | Faint
  deriving DecidableEq, Repr

/-- style/src/lib.rs:147-152 `impl Default for Color`. -/
instance : Inhabited Color := ⟨.Default⟩

/-- style/src/lib.rs:154-159 `impl Default for Intensity`. -/
instance : Inhabited Intensity := ⟨.Normal⟩

/-- style/src/lib.rs:69-78 `struct Style`. -/
structure Style where
  foreground : Color
  background : Color
  intensity : Intensity
  deriving DecidableEq, Repr

/-- style/src/lib.rs:69 `#[derive(Default)]` on `Style`: field-wise defaults. -/
def Style.default : Style :=
  { foreground := Inhabited.default, background := Inhabited.default,
    intensity := Inhabited.default }

/-- (a default for Lean, the same as Rust's; style/src/lib.rs:69 `derive(Default)`) -/
instance : Inhabited Style := ⟨Style.default⟩

/-- style/src/lib.rs:84-93 `struct StyleDiff`. -/
structure StyleDiff where
  foreground : Option Color
  background : Option Color
  intensity : Option Intensity
  deriving DecidableEq, Repr

/-- style/src/lib.rs:84 `#[derive(Default)]` on `StyleDiff`: all `None`. -/
def StyleDiff.default : StyleDiff := ⟨none, none, none⟩

/-- style/src/lib.rs:105-106 `struct Foreground(pub Color)`. -/
structure Foreground where
  color : Color
  deriving DecidableEq, Repr

/-- style/src/lib.rs:118-119 `struct Background(pub Color)`. -/
structure Background where
  color : Color
  deriving DecidableEq, Repr

/-- style/src/lib.rs:141-145 `trait Restyle`. -/
class Restyle (α : Type) where
  apply : α → Style → Style

/-- style/src/lib.rs:172-174 `Style::with`. -/
def Style.with {α : Type} [Restyle α] (self : Style) (adj : α) : Style := Restyle.apply adj self

/-- style/src/lib.rs:201-207 the nested generic `diff` in `Style::diff_from`. -/
def diffField {T : Type} [DecidableEq T] (original new : T) : Option T :=
  if original = new then none else some new

/-- style/src/lib.rs:200-214 `Style::diff_from`. -/
def Style.diffFrom (self original : Style) : StyleDiff :=
  { foreground := diffField original.foreground self.foreground
    background := diffField original.background self.background
    intensity := diffField original.intensity self.intensity }

/-- A reference `&T` (a distinct type in Rust, so that its `Restyle` impl is a distinct impl).
(style/src/lib.rs:217) -/
structure Ref (α : Type) where
  val : α

/-- A `Box<T>`. (style/src/lib.rs:224) -/
structure Boxed (α : Type) where
  val : α

/-- A trait object `dyn Restyle`: only its `apply` is observable. (macros/src/format.rs:51) -/
structure DynRestyle where
  applyFn : Style → Style

/-- Dynamic dispatch through the vtable (used by macros/src/format.rs:51-66). -/
instance : Restyle DynRestyle := ⟨fun r style => r.applyFn style⟩

/-- Unsizing coercion to `dyn Restyle` (`Box::new(..) as _`). (macros/src/format.rs:57, 61, 63) -/
def DynRestyle.of {α : Type} [Restyle α] (a : α) : DynRestyle := ⟨Restyle.apply a⟩

/-- style/src/lib.rs:217-221 `impl Restyle for &T`. -/
instance {α : Type} [Restyle α] : Restyle (Ref α) := ⟨fun r style => Restyle.apply r.val style⟩

/-- style/src/lib.rs:223-228 `impl Restyle for Box<T>`. -/
instance {α : Type} [Restyle α] : Restyle (Boxed α) := ⟨fun r style => Restyle.apply r.val style⟩

/-- style/src/lib.rs:230-237 `impl Restyle for [T]`: the `for` loop as structural recursion. -/
def restyleSlice {α : Type} [Restyle α] : List α → Style → Style
  | [], style => style
  | r :: rs, style => restyleSlice rs (Restyle.apply r style)

/-- style/src/lib.rs:230-237 `impl Restyle for [T]`. -/
instance {α : Type} [Restyle α] : Restyle (List α) := ⟨restyleSlice⟩

/-- style/src/lib.rs:239-243 `impl Restyle for Option<T>`. -/
instance {α : Type} [Restyle α] : Restyle (Option α) :=
  ⟨fun o style => match o with
    | none => style
    | some s => Restyle.apply s style⟩

/-- style/src/lib.rs:257-262 `impl Restyle for Style`. -/
instance : Restyle Style := ⟨fun self _ => self⟩

/-- style/src/lib.rs:264-273 `impl Restyle for Foreground`. -/
instance : Restyle Foreground := ⟨fun self style => { style with foreground := self.color }⟩

/-- style/src/lib.rs:275-284 `impl Restyle for Background`. -/
instance : Restyle Background := ⟨fun self style => { style with background := self.color }⟩

/-- style/src/lib.rs:286-294 `impl Restyle for Intensity`. -/
instance : Restyle Intensity := ⟨fun self style => { style with intensity := self }⟩

/-- style/src/lib.rs:296-301 `impl Restyle for ()`. -/
instance : Restyle Unit := ⟨fun _ style => style⟩

/-- A 2-tuple. (style/src/lib.rs:303) -/
structure Pair (T U : Type) where
  fst : T
  snd : U

/-- A 3-tuple. (style/src/lib.rs:309) -/
structure Triple (T U V : Type) where
  fst : T
  snd : U
  trd : V

/-- style/src/lib.rs:303-307 `impl Restyle for (T, U)`. -/
instance {T U : Type} [Restyle T] [Restyle U] : Restyle (Pair T U) :=
  ⟨fun self style => (style.with (Ref.mk self.fst)).with (Ref.mk self.snd)⟩

/-- style/src/lib.rs:309-313 `impl Restyle for (T, U, V)`. -/
instance {T U V : Type} [Restyle T] [Restyle U] [Restyle V] : Restyle (Triple T U V) :=
  ⟨fun self style =>
    ((style.with (Ref.mk self.fst)).with (Ref.mk self.snd)).with (Ref.mk self.trd)⟩

/-- style/src/lib.rs:245-255 `impl Restyle for StyleDiff`. -/
instance : Restyle StyleDiff :=
  ⟨fun self style =>
    Restyle.apply
      (Triple.mk (self.foreground.map Foreground.mk) (self.background.map Background.mk)
        self.intensity)
      style⟩

end Stylish
