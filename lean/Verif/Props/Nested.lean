import Verif.Props.Api
import Verif.Props.Spelling
/-
C08, for a placeholder anywhere in a format string and any writer.
-/

namespace Stylish.Props

open Spec Spec.Syntax

/-- Running pieces depends on the pieces before only through the number of `{}` among them. -/
theorem treeRun_before {W : Type} [Write W] (args : List (MacroArg ArgVal)) (scope : Str → ArgVal) (st : Style)
    (t : List PieceSyn) : ∀ (b b' : List PieceSyn), bareCount b = bareCount b' → ∀ w : W,
      treeRun args scope st b t w = treeRun args scope st b' t w := by
  induction t with
  | nil => intros; rfl
  | cons p t ih =>
    intro b b' h w
    have hv : ∀ ref, valueFor args scope b ref = valueFor args scope b' ref := by
      intro ref
      rcases ref with _ | ref
      · simp [valueFor, h]
      · cases ref <;> rfl
    have hp : pieceRun args scope b st p w = pieceRun args scope b' st p w := by
      cases p <;> simp [pieceRun, hv]
    simp only [treeRun, hp]
    rcases pieceRun args scope b' st p w with ⟨_ | _ | _ | _, w'⟩
    · exact ih _ _ (by simp [bareCount, List.countP_append] at h ⊢; omega) w'
    all_goals rfl

/-- Replacing one piece by another of the same reference that runs the same. -/
theorem treeRun_replace {W : Type} [Write W] (args : List (MacroArg ArgVal)) (scope : Str → ArgVal) (st : Style)
    (p p' : PieceSyn) (hb : bareCount [p] = bareCount [p']) (post : List PieceSyn) (pre : List PieceSyn) :
    ∀ (b : List PieceSyn), (∀ w : W, pieceRun args scope (b ++ pre) st p w = pieceRun args scope (b ++ pre) st p' w) →
      ∀ w : W, treeRun args scope st b (pre ++ p :: post) w = treeRun args scope st b (pre ++ p' :: post) w := by
  induction pre with
  | nil =>
    intro b h w
    rw [List.append_nil] at h
    simp only [List.nil_append, treeRun, h w]
    rcases pieceRun args scope b st p' w with ⟨_ | _ | _ | _, w'⟩
    · exact treeRun_before args scope st post _ _ (by
        simp only [bareCount, List.countP_append] at hb ⊢; omega) w'
    all_goals rfl
  | cons q pre ih =>
    intro b h w
    simp only [List.cons_append, treeRun]
    rcases pieceRun args scope b st q w with ⟨_ | _ | _ | _, w'⟩
    · exact ih (b ++ [q]) (by simpa using h) w'
    all_goals rfl

/-- C08: two format strings that differ only in the width, precision, alignment, sign, `#` and `0` of one
`s` placeholder, which shows an `Arguments` value, do the same on every writer, failing or not. -/
theorem C08_nested_any_writer {E : Env} (hE : E.Lawful)
    -- the value
    (format : Str) (args : List (MacroArg ArgVal)) (scope : Str → ArgVal) (x : Arguments)
    (h : formatArgs E format args scope = .ok x) (std : Format.FormatTrait → StdOpts → StdProg)
    -- the two format strings
    (pre post : List PieceSyn) (ref : Option ArgRef) (s s' : SpecSyn) (hs : s.ty = .stylish)
    (hs' : s'.ty = .stylish) (ha : s.attrs = s'.attrs) (outer outer' : Str)
    (ht : Reads E outer (pre ++ .arg ref (some s) :: post))
    (ht' : Reads E outer' (pre ++ .arg ref (some s') :: post))
    (args' : List (MacroArg ArgVal)) (scope' : Str → ArgVal)
    (hv : valueFor args' scope' pre ref = some ⟨std, Display.fmt x⟩) (y y' : Arguments)
    (hy : formatArgs E outer args' scope' = .ok y) (hy' : formatArgs E outer' args' scope' = .ok y')
    (W : Type) [Write W] (f : Formatter W) :
    Formatter.writeFmt y f = Formatter.writeFmt y' f := by
  rw [C46_any_writer hE outer args' scope' y hy _ ht, C46_any_writer hE outer' args' scope' y' hy' _ ht']
  have e : s.style f.style = s'.style f.style := by
    unfold SpecSyn.style SpecSyn.attrList
    rw [ha]
  rw [treeRun_replace args' scope' f.style (.arg ref (some s)) (.arg ref (some s')) (by
    cases ref <;> rfl) post pre [] (fun w => ?_) f.write]
  rw [List.nil_append]
  simp only [pieceRun, hv, argRun, specOf, Option.getD_some, hs, hs']
  obtain ⟨h1, h2⟩ := C08_any_writer hE format args scope x h W (s.style f.style) w s.options s'.options
  rw [← e]
  exact Prod.ext h1 h2

/-- C08 on an example: `[{:(bold)s}]` and `[{:>#08.2(bold)s}]`, showing `format_args!("{}", "x")`: both compile, and
the placeholder's reference is to the `Arguments` value. -/
example :
    ((formatArgs asciiEnv (str "{}") [.positional (textArg ['x'])] noScope).toOption.bind fun x =>
      (formatArgs asciiEnv (str "[{:(bold)s}]") [.positional ⟨fun _ _ => .done .ok, Display.fmt x⟩] noScope).toOption.map
        fun y => writes (Display.fmt y) .default .default) =
    some ([(['['], ⟨.Default, .Default, .Normal⟩), (['x'], ⟨.Default, .Default, .Bold⟩),
      ([']'], ⟨.Default, .Default, .Normal⟩)], .ok ()) ∧
    ((formatArgs asciiEnv (str "{}") [.positional (textArg ['x'])] noScope).toOption.bind fun x =>
      (formatArgs asciiEnv (str "[{:>#08.2(bold)s}]") [.positional ⟨fun _ _ => .done .ok, Display.fmt x⟩]
        noScope).toOption.map fun y => writes (Display.fmt y) .default .default) =
    some ([(['['], ⟨.Default, .Default, .Normal⟩), (['x'], ⟨.Default, .Default, .Bold⟩),
      ([']'], ⟨.Default, .Default, .Normal⟩)], .ok ()) :=
  by decide +kernel

end Stylish.Props
