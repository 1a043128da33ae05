import Verif.Lemmas.NomFuel
import Verif.Props.Macro
/-
C58: expansion terminates.
-/

namespace Stylish.Props

open Nom Format Spec Spec.Syntax

/-! ## C58 -/

/-- C58: the loop over the pieces of the format string: a piece that is read is never empty, so that nom's check
for an iteration without progress never fires, and the loop ends by itself: any bound on the number of iterations
above the length of the string gives the same result. -/
theorem C58_pieces (E : Env) (format : Str) :
    (∀ s rest p, parsePiece E s = .ok rest p → rest <:+ s ∧ rest.length < s.length) ∧
    ∀ bound, format.length < bound → allConsuming (many0Loop (parsePiece E) bound) format = parseFormat E format := by
  refine ⟨fun s rest p h => ⟨parsePiece_suffix E _ _ _ h, parsePiece_consumes E _ _ _ h⟩, fun bound hb => ?_⟩
  unfold parseFormat allConsuming many0
  rw [many0Loop_fuel (parsePiece_suffix E) bound (format.length + 1) format hb (by omega)]

/-- C58: the same for the loop over an attribute list, and for the loops over the characters of a text and of a
name. -/
theorem C58_attributes (s : Str) (bound : Nat) (h : s.length < bound) :
    separatedLoop (tag (str ",")) (cut parseRestyle) bound s =
      separatedLoop (tag (str ",")) (cut parseRestyle) (s.length + 1) s ∧
    ∀ q, many0Loop (satisfy q) bound s = many0 (satisfy q) s :=
  ⟨separatedLoop_fuel (tag_suffix _) (cut_suffix parseRestyle_suffix) _ _ s h (by omega),
    fun _ => many0Loop_fuel (satisfy_suffix _) _ _ s h (by omega)⟩

theorem length_stmtsFor (names : List Str) (t : List PieceSyn) : ∀ a b, (stmtsFor names a b t).length = t.length := by
  induction t with
  | nil => intros; rfl
  | cons p t ih =>
    intro a b
    simp [stmtsFor, ih]

/-- Every piece has at least one character. -/
theorem length_le_print {E : Env} {t : List PieceSyn} (h : ∀ p ∈ t, p.Documented E) : t.length ≤ (print t).length := by
  induction t with
  | nil => exact Nat.le_refl _
  | cons p t ih =>
    have h1 := ih (fun q hq => h q (List.mem_cons_of_mem _ hq))
    have h2 : 1 ≤ p.print.length := by
      have := h p (List.mem_cons_self ..)
      rcases p with s | _ | _ | ⟨r, spec⟩
      · exact List.length_pos_iff.2 this.1
      · decide
      · decide
      · simp [PieceSyn.print]
    show t.length + 1 ≤ (p.print ++ print t).length
    rw [List.length_append]
    omega

theorem length_captures (names : List Str) (t : List PieceSyn) : (t.flatMap (captureOf names)).length ≤ t.length := by
  induction t with
  | nil => exact Nat.le_refl _
  | cons p t ih =>
    rw [List.flatMap_cons, List.length_append, List.length_cons]
    have : (captureOf names p).length ≤ 1 := by
      unfold captureOf
      split
      · split <;> simp
      · simp
    omega

theorem length_args {X : Type} (args : List (MacroArg X)) :
    (positionals args).length + (nameds args).length = args.length := by
  induction args with
  | nil => rfl
  | cons a args ih =>
    cases a <;> simp only [positionals, nameds, List.filterMap_cons, List.length_cons] at ih ⊢ <;> omega

/-- C58: the generated code is linear in the call: it has at most as many statements, and captures at most as many
variables, as the format string has characters, and it has the arguments of the call once each. -/
theorem C58_size {X : Type} {E : Env} (hE : E.Lawful) (format : Str) (args : List (MacroArg X)) (x : Expansion X)
    (h : formatArgsMacro E format args = .ok x) :
    x.statements.length ≤ format.length ∧ x.implicit.length ≤ format.length ∧
    x.positional.length + x.named.length = args.length := by
  obtain ⟨t, rfl, hd, hs, -⟩ := (C39_compiles_iff hE format args).1 ⟨x, h⟩
  rcases formatArgsMacro_tree hE args t hd hs with ⟨⟨hp, -⟩, e⟩ | ⟨-, e, he, -⟩
  rotate_left
  · rw [he] at h; cases h
  rw [e] at h
  obtain rfl := Except.ok.inj h
  have hl := length_le_print hd.1
  refine ⟨?_, ?_, ?_⟩
  · show (stmtsFor _ 0 0 t).length ≤ _
    rw [length_stmtsFor]
    exact hl
  · refine Nat.le_trans ?_ hl
    exact length_captures _ t
  · show (positionals args).length + ((nameds args).map Prod.snd).length = _
    rw [List.length_map]
    exact length_args args

/-- C58 on an example: three pieces, of which one captures a variable. -/
example : (formatArgsMacro asciiEnv (str "a{}{n}") [.positional ()]).toOption.map
    (fun x => (x.statements.length, x.implicit, x.positional.length)) = some (3, [str "n"], 1) := by
  decide +kernel

end Stylish.Props
