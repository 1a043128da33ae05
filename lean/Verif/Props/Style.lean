import Verif.Model.Style
/-
Properties of the style crate: C01 - C05.
-/

namespace Stylish.Props

/-! ## C01 -/

/-- C01: applying `b.diff_from(a)` to `a` gives exactly `b`. -/
theorem C01_diff_replays (a b : Style) : a.with (b.diffFrom a) = b := by
  obtain ⟨af, ab, ai⟩ := a
  obtain ⟨bf, bb, bi⟩ := b
  simp only [Style.with, Style.diffFrom, Restyle.apply, diffField]
  by_cases h1 : af = bf <;> by_cases h2 : ab = bb <;> by_cases h3 : ai = bi <;> simp_all

example : (⟨.Red, .Default, .Bold⟩ : Style).with
    ((⟨.Red, .Blue, .Normal⟩ : Style).diffFrom ⟨.Red, .Default, .Bold⟩) = ⟨.Red, .Blue, .Normal⟩ :=
  C01_diff_replays _ _

/-! ## C02 -/

/-- `d` mentions everything that `e` mentions, with the same value. -/
def Extends (d e : StyleDiff) : Prop :=
  (∀ c, e.foreground = some c → d.foreground = some c) ∧
  (∀ c, e.background = some c → d.background = some c) ∧
  (∀ i, e.intensity = some i → d.intensity = some i)

/-- C02: `b.diff_from(a)` mentions an attribute iff `a` and `b` differ in it; the value mentioned is
`b`'s; and any diff turning `a` into `b` extends it. -/
theorem C02_diff_minimal (a b : Style) :
    (((b.diffFrom a).foreground = none ↔ a.foreground = b.foreground) ∧
     ((b.diffFrom a).background = none ↔ a.background = b.background) ∧
     ((b.diffFrom a).intensity = none ↔ a.intensity = b.intensity)) ∧
    (∀ c, (b.diffFrom a).foreground = some c → c = b.foreground) ∧
    (∀ c, (b.diffFrom a).background = some c → c = b.background) ∧
    (∀ i, (b.diffFrom a).intensity = some i → i = b.intensity) ∧
    (∀ d : StyleDiff, a.with d = b → Extends d (b.diffFrom a)) := by
  obtain ⟨af, ab, ai⟩ := a
  obtain ⟨bf, bb, bi⟩ := b
  refine ⟨?_, ?_, ?_, ?_, ?_⟩
  · simp only [Style.diffFrom, diffField]
    refine ⟨?_, ?_, ?_⟩ <;> split <;> simp_all
  · simp only [Style.diffFrom, diffField]; intro c; split <;> simp_all
  · simp only [Style.diffFrom, diffField]; intro c; split <;> simp_all
  · simp only [Style.diffFrom, diffField]; intro c; split <;> simp_all
  · rintro ⟨df, db, di⟩ h
    simp only [Style.with, Restyle.apply, Style.diffFrom, diffField, Extends] at h ⊢
    cases df <;> cases db <;> cases di <;> simp_all

/-- C02: a style differs from itself by the empty diff. -/
theorem C02_self_diff (a : Style) : a.diffFrom a = StyleDiff.default := by
  simp [Style.diffFrom, diffField, StyleDiff.default]

example : ∃ d : StyleDiff, (⟨.Red, .Default, .Bold⟩ : Style).with d = ⟨.Red, .Blue, .Bold⟩ ∧
    d ≠ (⟨.Red, .Blue, .Bold⟩ : Style).diffFrom ⟨.Red, .Default, .Bold⟩ :=
  ⟨⟨some .Red, some .Blue, none⟩, by decide, by decide⟩

/-! ## C03 -/

/-- Every way to assemble a restyling from the implementors the crate provides. -/
inductive Builtin where
  | foreground (c : Color)
  | background (c : Color)
  | intensity (i : Intensity)
  | style (s : Style)
  | diff (d : StyleDiff)
  | unit
  | ref (b : Builtin)
  | boxed (b : Builtin)
  | none
  | some (b : Builtin)
  | pair (a b : Builtin)
  | triple (a b c : Builtin)
  | slice (l : List Builtin)

mutual
/-- The restyling a `Builtin` stands for; each case is the crate's own impl for that type. -/
def Builtin.dyn : Builtin → DynRestyle
  | .foreground c => .of (Foreground.mk c)
  | .background c => .of (Background.mk c)
  | .intensity i => .of i
  | .style s => .of s
  | .diff d => .of d
  | .unit => .of ()
  | .ref b => .of (Ref.mk b.dyn)
  | .boxed b => .of (Boxed.mk b.dyn)
  | .none => .of (Option.none : Option DynRestyle)
  | .some b => .of (Option.some b.dyn)
  | .pair a b => .of (Pair.mk a.dyn b.dyn)
  | .triple a b c => .of (Triple.mk a.dyn b.dyn c.dyn)
  | .slice l => .of (Builtin.dyns l)
/-- The elements of a slice. -/
def Builtin.dyns : List Builtin → List DynRestyle
  | [] => []
  | b :: bs => b.dyn :: Builtin.dyns bs
end

/-- The specification: set each attribute that has a value, keep the others. -/
def setAttrs (d : StyleDiff) (s : Style) : Style :=
  ⟨d.foreground.getD s.foreground, d.background.getD s.background, d.intensity.getD s.intensity⟩

/-- One set of settings after another: the later ones win. -/
def diffThen (d e : StyleDiff) : StyleDiff :=
  ⟨e.foreground <|> d.foreground, e.background <|> d.background, e.intensity <|> d.intensity⟩

theorem setAttrs_diffThen (d e : StyleDiff) (s : Style) :
    setAttrs e (setAttrs d s) = setAttrs (diffThen d e) s := by
  obtain ⟨d1, d2, d3⟩ := d
  obtain ⟨e1, e2, e3⟩ := e
  simp only [setAttrs, diffThen]
  cases e1 <;> cases e2 <;> cases e3 <;> simp

mutual
theorem Builtin.asDiff : (b : Builtin) → ∃ d : StyleDiff, ∀ s, b.dyn.applyFn s = setAttrs d s
  | .foreground c => ⟨⟨Option.some c, Option.none, Option.none⟩, fun _ => rfl⟩
  | .background c => ⟨⟨Option.none, Option.some c, Option.none⟩, fun _ => rfl⟩
  | .intensity i => ⟨⟨Option.none, Option.none, Option.some i⟩, fun _ => rfl⟩
  | .style st => ⟨⟨Option.some st.foreground, Option.some st.background, Option.some st.intensity⟩,
      fun _ => rfl⟩
  | .diff d => ⟨d, fun s => by
      obtain ⟨d1, d2, d3⟩ := d
      cases d1 <;> cases d2 <;> cases d3 <;> rfl⟩
  | .unit => ⟨StyleDiff.default, fun _ => rfl⟩
  | .ref b => by
      obtain ⟨d, h⟩ := Builtin.asDiff b
      exact ⟨d, fun s => by simpa [Builtin.dyn, DynRestyle.of, Restyle.apply] using h s⟩
  | .boxed b => by
      obtain ⟨d, h⟩ := Builtin.asDiff b
      exact ⟨d, fun s => by simpa [Builtin.dyn, DynRestyle.of, Restyle.apply] using h s⟩
  | .none => ⟨StyleDiff.default, fun s => by
      simp [Builtin.dyn, DynRestyle.of, Restyle.apply, setAttrs, StyleDiff.default]⟩
  | .some b => by
      obtain ⟨d, h⟩ := Builtin.asDiff b
      exact ⟨d, fun s => by simpa [Builtin.dyn, DynRestyle.of, Restyle.apply] using h s⟩
  | .pair a b => by
      obtain ⟨d, h⟩ := Builtin.asDiff a
      obtain ⟨e, k⟩ := Builtin.asDiff b
      exact ⟨diffThen d e, fun s => by
        simp [Builtin.dyn, DynRestyle.of, Restyle.apply, Style.with, h, k, setAttrs_diffThen]⟩
  | .triple a b c => by
      obtain ⟨d, h⟩ := Builtin.asDiff a
      obtain ⟨e, k⟩ := Builtin.asDiff b
      obtain ⟨f, l⟩ := Builtin.asDiff c
      exact ⟨diffThen (diffThen d e) f, fun s => by
        simp [Builtin.dyn, DynRestyle.of, Restyle.apply, Style.with, h, k, l, setAttrs_diffThen]⟩
  | .slice l => by
      obtain ⟨d, h⟩ := Builtin.asDiffs l
      exact ⟨d, fun s => by simpa [Builtin.dyn, DynRestyle.of, Restyle.apply] using h s⟩
theorem Builtin.asDiffs : (l : List Builtin) →
    ∃ d : StyleDiff, ∀ s, restyleSlice (Builtin.dyns l) s = setAttrs d s
  | [] => ⟨StyleDiff.default, fun _ => rfl⟩
  | b :: bs => by
      obtain ⟨d, h⟩ := Builtin.asDiff b
      obtain ⟨e, k⟩ := Builtin.asDiffs bs
      exact ⟨diffThen d e, fun s => by
        simp [Builtin.dyns, restyleSlice, Restyle.apply, h, k, setAttrs_diffThen]⟩
end

/-- C03: every restyling assembled from the built-in implementors acts, on every style, like one fixed
set of attribute settings. -/
theorem C03_builtin_is_diff (b : Builtin) :
    ∃ d : StyleDiff, ∀ s : Style, s.with b.dyn = setAttrs d s :=
  Builtin.asDiff b

/-- C03: applying it a second time changes nothing. -/
theorem C03_builtin_idempotent (b : Builtin) (s : Style) :
    (s.with b.dyn).with b.dyn = s.with b.dyn := by
  obtain ⟨d, h⟩ := C03_builtin_is_diff b
  rw [h, h, setAttrs_diffThen]
  congr 1
  obtain ⟨d1, d2, d3⟩ := d
  cases d1 <;> cases d2 <;> cases d3 <;> rfl

/-- C03: and a `StyleDiff` itself acts as the settings it lists. -/
theorem C03_styleDiff_sets (d : StyleDiff) (s : Style) : s.with d = setAttrs d s := by
  obtain ⟨d1, d2, d3⟩ := d
  cases d1 <;> cases d2 <;> cases d3 <;> rfl

example : (Style.default.with
    (Builtin.slice [.pair (.foreground .Red) (.some (.diff ⟨none, some .Blue, none⟩)),
      .ref (.boxed (.foreground .Green)), .none]).dyn) = ⟨.Green, .Blue, .Normal⟩ := rfl

/-! ## C04 -/

/-- C04: a slice is the same as one `.with` per element, in order. -/
theorem C04_slice_left_to_right {α : Type} [Restyle α] (l : List α) (s : Style) :
    s.with l = l.foldl (fun s r => s.with r) s := by
  show restyleSlice l s = _
  induction l generalizing s with
  | nil => rfl
  | cons r rs ih => exact ih _

/-- C04: concatenated slices compose. -/
theorem C04_slice_append {α : Type} [Restyle α] (l m : List α) (s : Style) :
    s.with (l ++ m) = (s.with l).with m := by
  simp only [C04_slice_left_to_right, List.foldl_append]

/-- C04: pairs and triples apply left to right. -/
theorem C04_tuples_left_to_right {α β γ : Type} [Restyle α] [Restyle β] [Restyle γ]
    (a : α) (b : β) (c : γ) (s : Style) :
    s.with (Pair.mk a b) = (s.with a).with b ∧
    s.with (Triple.mk a b c) = ((s.with a).with b).with c := ⟨rfl, rfl⟩

/-- A single attribute setting. -/
inductive Setting where
  | fg (c : Color) | bg (c : Color) | int (i : Intensity)

/-- The crate's restyling for a setting. -/
def Setting.dyn : Setting → DynRestyle
  | .fg c => .of (Foreground.mk c)
  | .bg c => .of (Background.mk c)
  | .int i => .of i

def Setting.fg? : Setting → Option Color | .fg c => some c | _ => none
def Setting.bg? : Setting → Option Color | .bg c => some c | _ => none
def Setting.int? : Setting → Option Intensity | .int i => some i | _ => none

/-- C04: each attribute ends up with the last value set for it in the list, or keeps its value. -/
theorem C04_last_wins (l : List Setting) (s : Style) :
    (s.with (l.map Setting.dyn)).foreground = ((l.filterMap Setting.fg?).getLast?).getD s.foreground ∧
    (s.with (l.map Setting.dyn)).background = ((l.filterMap Setting.bg?).getLast?).getD s.background ∧
    (s.with (l.map Setting.dyn)).intensity = ((l.filterMap Setting.int?).getLast?).getD s.intensity := by
  have snoc : ∀ {β : Type} (xs : List β) (y d : β), ((xs ++ [y]).getLast?).getD d = y := by simp
  rw [C04_slice_left_to_right]
  generalize hm : l.reverse = m
  have hl : l = m.reverse := by simp [← hm]
  subst hl
  clear hm
  induction m with
  | nil => simp
  | cons x m ih =>
    obtain ⟨h1, h2, h3⟩ := ih
    simp only [List.reverse_cons, List.map_append, List.map_cons, List.map_nil, List.foldl_append,
      List.foldl_cons, List.foldl_nil, List.filterMap_append] at h1 h2 h3 ⊢
    cases x <;>
      simp [Setting.dyn, Setting.fg?, Setting.bg?, Setting.int?, Style.with, Restyle.apply,
        DynRestyle.of] at h1 h2 h3 ⊢ <;> simp [h1, h2, h3]

example : (Style.default.with ([Setting.fg .Red, .int .Bold, .fg .Blue].map Setting.dyn)) =
    ⟨.Blue, .Default, .Bold⟩ := rfl

/-! ## C05 -/

/-- C05: a `Style` used as a restyling is absolute. -/
theorem C05_style_absolute (s old : Style) : old.with s = s := rfl

/-- C05: the neutral restylings. -/
theorem C05_neutral {α : Type} [Restyle α] (s : Style) :
    s.with () = s ∧ s.with (none : Option α) = s ∧ s.with ([] : List α) = s ∧
    s.with StyleDiff.default = s := ⟨rfl, rfl, rfl, rfl⟩

/-- C05: references, boxes, `Some` and one-element slices are transparent. -/
theorem C05_transparent {α : Type} [Restyle α] (a : α) (s : Style) :
    s.with (Ref.mk a) = s.with a ∧ s.with (Boxed.mk a) = s.with a ∧
    s.with (some a) = s.with a ∧ s.with [a] = s.with a := ⟨rfl, rfl, rfl, rfl⟩

/-- C05: attribute restylings set their own attribute and nothing else. -/
theorem C05_attribute_only (c : Color) (i : Intensity) (s : Style) :
    s.with (Foreground.mk c) = ⟨c, s.background, s.intensity⟩ ∧
    s.with (Background.mk c) = ⟨s.foreground, c, s.intensity⟩ ∧
    s.with i = ⟨s.foreground, s.background, i⟩ := ⟨rfl, rfl, rfl⟩

end Stylish.Props
