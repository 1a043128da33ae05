import Verif.Spec.Mistake
import Verif.Props.MacroArgs
/-
Which mistake a rejected call is blamed on: C90.
-/

namespace Stylish.Props

open Nom Format Spec Spec.Syntax

variable {X : Type}

theorem refMistake_none (args : List (MacroArg X)) (before : List PieceSyn) (ref : Option ArgRef) :
    refMistake args before ref = none ↔ RefExists args before ref := by
  rcases ref with _ | ds | n
  · simp [refMistake, RefExists]
  · simp [refMistake, RefExists]
  · simp only [refMistake, RefExists]
    by_cases h1 : n ∈ (nameds args).map Prod.fst
    · simp [h1]
    · rw [if_neg h1]
      by_cases h2 : n ∈ [str "_", str "super", str "self", str "Self", str "crate"]
      · rw [if_pos h2]; simp [h1, h2]
      · rw [if_neg h2]; exact ⟨fun _ => Or.inr h2, fun _ => rfl⟩

theorem countMistake_none (s : SpecSyn) : countMistake s = none ↔ s.NoParams := by
  unfold countMistake SpecSyn.NoParams
  rcases s.width with _ | _ | _ <;> rcases s.precision with _ | ⟨_ | _⟩ | _ <;> simp

theorem countMistake_some (s : SpecSyn) (h : ¬ s.NoParams) : countMistake s = some .countParameterTodo := by
  have h1 : countMistake s = none ∨ countMistake s = some .countParameterTodo := by
    unfold countMistake
    rcases s.width with _ | _ | _ <;> rcases s.precision with _ | ⟨_ | _⟩ | _ <;> simp
  rcases h1 with h1 | h1
  · exact absurd ((countMistake_none s).1 h1) h
  · exact h1

theorem resolveRef_mistake (args : List (MacroArg X)) (before : List PieceSyn) (st : GenState) (ref : Option ArgRef)
    (hst : st.next = bareCount before) (e : CompileError) (h : refMistake args before ref = some e) :
    resolveRef (positionals args).length ((nameds args).map Prod.fst) st (ref.map ArgRef.toRef) = .error e := by
  rcases ref with _ | ds | n
  · simp only [refMistake] at h
    split at h
    · cases h
    · rename_i hn
      cases h
      simp [resolveRef, hst, hn]
  · simp only [refMistake] at h
    split at h
    · cases h
    · rename_i hn
      cases h
      have hn' : numeralValue ds ≥ (positionals args).length := by omega
      simp [resolveRef, ArgRef.toRef, hn']
  · simp only [refMistake] at h
    split at h
    · cases h
    · rename_i hn
      split at h
      · rename_i hb
        cases h
        have h1 := (namedIndex_none ((nameds args).map Prod.fst) n).2 hn
        have h2 : canBeRaw n = false := by
          cases hc : canBeRaw n with
          | false => rfl
          | true => exact absurd hb ((canBeRaw_iff n).1 hc)
        simp [resolveRef, ArgRef.toRef, h1, h2]
      · cases h

theorem genPiece_mistake (args : List (MacroArg X)) (before : List PieceSyn) (st : GenState) (p : PieceSyn)
    (hst : st.next = bareCount before) (hp : ∀ s, p = .text s → '{' ∉ s) :
    match pieceMistake args before p with
    | some e => genPiece (positionals args).length ((nameds args).map Prod.fst) st p.toPiece = .error e
    | none => ∃ s, genPiece (positionals args).length ((nameds args).map Prod.fst) st p.toPiece =
        .ok (s, stepState ((nameds args).map Prod.fst) st p) := by
  rcases genPiece_tree (positionals args).length ((nameds args).map Prod.fst) st p hp with ⟨h1, e1⟩ | ⟨h1, e, e1, -⟩
  · have : pieceMistake args before p = none := by
      cases p with
      | arg ref spec =>
        have hr : RefExists args before ref := (RefOkAt_iff args before ref).1 (by simpa [hst] using h1.1)
        simp [pieceMistake, (refMistake_none args before ref).2 hr, (countMistake_none _).2 h1.2]
      | _ => rfl
    rw [this]
    exact ⟨_, e1⟩
  · cases p with
    | text => exact absurd trivial h1
    | openBrace => exact absurd trivial h1
    | closeBrace => exact absurd trivial h1
    | arg ref spec =>
      cases hr : refMistake args before ref with
      | some e' =>
        simp only [pieceMistake, hr, Option.some_or]
        rw [toPiece_arg]
        simp only [genPiece, resolveRef_mistake args before st ref hst e' hr]
        rfl
      | none =>
        have hr' := (refMistake_none args before ref).1 hr
        have hok : RefOkAt (positionals args).length ((nameds args).map Prod.fst) st.next ref := by
          have := (RefOkAt_iff args before ref).2 hr'
          simpa [hst] using this
        have hnp : ¬ (specOf spec).NoParams := fun hn => h1 ⟨hok, hn⟩
        simp only [pieceMistake, hr, Option.none_or, countMistake_some _ hnp]
        rw [toPiece_arg]
        rcases resolveRef_tree (positionals args).length ((nameds args).map Prod.fst) st ref spec with ⟨-, e2⟩ | ⟨h2, -⟩
        · rcases formatterArgsTokens_spec (specOf spec) with ⟨h3, -⟩ | ⟨-, e3⟩
          · exact absurd h3 hnp
          · simp only [genPiece]
            rw [e2]
            simp only [bind, Except.bind, e3, argTokens_ok]
        · exact absurd hok h2

theorem genPieces_mistake (args : List (MacroArg X)) (before : List PieceSyn) (st : GenState) (t : List PieceSyn)
    (hst : st.next = bareCount before) (ht : ∀ s, PieceSyn.text s ∈ t → '{' ∉ s) :
    match firstMistake args before t with
    | some e => genPieces (positionals args).length ((nameds args).map Prod.fst) st (t.map PieceSyn.toPiece) = .error e
    | none => ∃ r, genPieces (positionals args).length ((nameds args).map Prod.fst) st (t.map PieceSyn.toPiece) = .ok r := by
  induction t generalizing before st with
  | nil => exact ⟨_, rfl⟩
  | cons p t ih =>
    have h1 := genPiece_mistake args before st p hst (fun s hs => ht s (by simp [hs]))
    simp only [List.map_cons, genPieces, firstMistake]
    cases hm : pieceMistake args before p with
    | some e =>
      rw [hm] at h1
      simp only at h1
      rw [h1]
      rfl
    | none =>
      rw [hm] at h1
      obtain ⟨s, h1⟩ := h1
      have h2 := ih (before ++ [p]) (stepState ((nameds args).map Prod.fst) st p) (by
        show st.next + bareOf p = _
        rw [hst]
        unfold bareCount bareOf
        rw [List.countP_append, List.countP_singleton]) (fun s hs => ht s (by simp [hs]))
      rw [h1]
      simp only [Option.none_or, bind, Except.bind]
      cases hf : firstMistake args (before ++ [p]) t with
      | some e => rw [hf] at h2; simp only at h2 ⊢; rw [h2]
      | none => rw [hf] at h2; obtain ⟨r, h2⟩ := h2; simp only; rw [h2]; exact ⟨_, rfl⟩

/-- What a call with a format string that can be read is blamed on: the first mistake in the format string; if there is
none, arguments that are not used. -/
def Blame (args : List (MacroArg X)) (t : List PieceSyn) (e : CompileError) : Prop :=
  firstMistake args [] t = some e ∨ firstMistake args [] t = none ∧ e = .unusedArguments ∧ ¬ AllUsed args t

/-- C90: which error a call is rejected with, in full: a positional argument after a named one comes first, then a fill
that is not supported, then a format string that cannot be read; then the first mistake in reading order, in one
placeholder the reference before the counts; and only if there is none of these, an unused argument. -/
theorem C90_reported_error {E : Env} (hE : E.Lawful) (format : Str) (args : List (MacroArg X)) (e : CompileError) :
    formatArgsMacro E format args = .error e ↔
      (¬ PositionalFirst args ∧ e = .positionalAfterNamed) ∨
      (PositionalFirst args ∧ UnsupportedFill E format ∧ e = .fillTodo) ∨
      (PositionalFirst args ∧ ¬ UnsupportedFill E format ∧ (¬ ∃ t, Reads E format t) ∧ e = .parse) ∨
      (PositionalFirst args ∧ ∃ t, Reads E format t ∧ Blame args t e) := by
  obtain ⟨i1, i2, i3⟩ := C42_format_errors_iff hE format args
  have hnot : UnsupportedFill E format → ¬ ∃ t, Reads E format t := by
    rintro hu ⟨t, rfl, hd, hs⟩
    have h1 := (parseFormat_iff hE (print t) [] _).2 ⟨rfl, t, rfl, rfl, hd, hs⟩
    rw [(parseFormat_panic_iff hE _).2 hu] at h1
    cases h1
  by_cases hp : PositionalFirst args
  · by_cases hu : UnsupportedFill E format
    · rw [i2.2 ⟨hp, hu⟩]
      constructor
      · intro h; cases h; exact Or.inr (Or.inl ⟨hp, hu, rfl⟩)
      · rintro (⟨h, -⟩ | ⟨-, -, rfl⟩ | ⟨-, h, -⟩ | ⟨-, t, ht, -⟩)
        · exact absurd hp h
        · rfl
        · exact absurd hu h
        · exact absurd ⟨t, ht⟩ (hnot hu)
    · by_cases hr : ∃ t, Reads E format t
      · have key : ∀ t, Reads E format t → (formatArgsMacro E format args = .error e ↔ Blame args t e) := by
          rintro t ⟨rfl, hd, hs⟩
          have hpp : parsePieces E (print t) = .ok (t.map PieceSyn.toPiece) := by
            unfold parsePieces
            rw [(parseFormat_iff hE _ _ _).2 ⟨rfl, t, rfl, rfl, hd, hs⟩]
          have hg := genPieces_mistake args [] ⟨[], [], [], 0⟩ t rfl (documented_text hd)
          unfold Blame
          cases hf : firstMistake args [] t with
          | some e' =>
            rw [hf] at hg
            simp only at hg
            have : formatArgsMacro E (print t) args = .error e' := by
              unfold formatArgsMacro
              rcases parse_cases (print t) args with ⟨-, e1⟩ | ⟨h1, -⟩
              · rw [e1]
                simp only [bind, Except.bind, formatArgsImpl, hpp, hg]
              · exact absurd hp h1
            rw [this]
            simp
          | none =>
            rw [hf] at hg
            obtain ⟨r, hg⟩ := hg
            rcases formatArgsMacro_tree hE args t hd hs with ⟨⟨-, -, h3⟩, he⟩ | ⟨hno, e', he, hge⟩
            · rw [he]
              simp [h3]
            · rcases hge with ⟨-, hge⟩ | ⟨hge, -⟩
              · have hrefs : RefsOk args t := by
                  rcases genPieces_tree (positionals args).length ((nameds args).map Prod.fst) ⟨[], [], [], 0⟩ t
                    (documented_text hd) with ⟨h1, -⟩ | ⟨-, e2, _, _, _, h2, -⟩
                  · exact (RefsOk_iff args t).1 h1
                  · rw [h2] at hg; cases hg
                have hun : ¬ AllUsed args t := fun hu => hno ⟨hp, hrefs, hu⟩
                have : formatArgsMacro E (print t) args = .error .unusedArguments := by
                  unfold formatArgsMacro
                  rcases parse_cases (print t) args with ⟨-, e1⟩ | ⟨h1, -⟩
                  · rw [e1]
                    rcases formatArgsImpl_tree hE args t hd hs with ⟨h2, -⟩ | ⟨-, e2, h2, h3⟩
                    · exact absurd h2.2 hun
                    · simp only [bind, Except.bind, h2]
                      rcases genPieces_tree (positionals args).length ((nameds args).map Prod.fst) ⟨[], [], [], 0⟩ t
                        (documented_text hd) with ⟨-, h4⟩ | ⟨-, e4, _, _, _, h4, -⟩
                      · unfold formatArgsImpl at h2
                        simp only [hpp, bind, Except.bind, h4] at h2
                        split at h2
                        · exact h2.symm ▸ rfl
                        · cases h2
                      · rw [h4] at hg; cases hg
                  · exact absurd hp h1
                rw [this]
                constructor
                · intro h; cases h; exact Or.inr ⟨rfl, rfl, hun⟩
                · rintro (h | ⟨-, rfl, -⟩)
                  · cases h
                  · rfl
              · exact absurd hp hge
        constructor
        · intro h
          obtain ⟨t, ht⟩ := hr
          exact Or.inr (Or.inr (Or.inr ⟨hp, t, ht, (key t ht).1 h⟩))
        · rintro (⟨h, -⟩ | ⟨-, h, -⟩ | ⟨-, -, h, -⟩ | ⟨-, t, ht, hb⟩)
          · exact absurd hp h
          · exact absurd h hu
          · exact absurd hr h
          · exact (key t ht).2 hb
      · rw [i3.2 ⟨hp, hr, hu⟩]
        constructor
        · intro h; cases h; exact Or.inr (Or.inr (Or.inl ⟨hp, hu, hr, rfl⟩))
        · rintro (⟨h, -⟩ | ⟨-, h, -⟩ | ⟨-, -, -, rfl⟩ | ⟨-, t, ht, -⟩)
          · exact absurd hp h
          · exact absurd h hu
          · rfl
          · exact absurd ⟨t, ht⟩ hr
  · rw [i1.2 hp]
    constructor
    · intro h; cases h; exact Or.inl ⟨hp, rfl⟩
    · rintro (⟨-, rfl⟩ | ⟨h, -⟩ | ⟨h, -⟩ | ⟨h, -⟩)
      · rfl
      all_goals exact absurd h hp

/-- Non-vacuity: `"{}{5}{self}"` with one argument has two mistakes, and the call is rejected because of the first. -/
example : (match formatArgsMacro asciiEnv (str "{}{5}{self}") [(.positional 7 : MacroArg Nat)] with
    | .error e => decide (e = .missingPositional 5) | _ => false) = true := by decide +kernel

/-- Non-vacuity: `"{1:w$}"` with one argument: the reference comes before the count. -/
example : (match formatArgsMacro asciiEnv (str "{1:w$}") [(.positional 7 : MacroArg Nat)] with
    | .error e => decide (e = .missingPositional 1) | _ => false) = true := by decide +kernel

/-- Non-vacuity: `"{0:1$}{self}"`: the count of the first placeholder comes before the reference of the second, and both
before the argument that is not used. -/
example : (match formatArgsMacro asciiEnv (str "{0:1$}{self}") [(.positional 7 : MacroArg Nat), .positional 8] with
    | .error e => decide (e = .countParameterTodo) | _ => false) = true := by decide +kernel

/-- Non-vacuity: `"{0}"` with two arguments has no mistake in the format string. -/
example : (match formatArgsMacro asciiEnv (str "{0}") [(.positional 7 : MacroArg Nat), .positional 8] with
    | .error e => decide (e = .unusedArguments) | _ => false) = true := by decide +kernel

end Stylish.Props
