import Verif.Props.MacroArgs
import Verif.Props.Ansi
import Verif.Props.Html
/-
Property C41: `writeln!` is `write!` plus a newline.
-/

namespace Stylish.Props

open Nom Format Spec Spec.Syntax

variable {X : Type}

/-- Append a newline to the last text of a tree. -/
def addNl : List PieceSyn → List PieceSyn
  | [] => [.text ['\n']]
  | [.text s] => [.text (s ++ ['\n'])]
  | p :: rest => p :: addNl rest

theorem addNl_text (s : Str) (q : PieceSyn) (r : List PieceSyn) :
    addNl (.text s :: q :: r) = .text s :: addNl (q :: r) := rfl

theorem addNl_nontext (p : PieceSyn) (r : List PieceSyn) (h : p.isText = false) :
    addNl (p :: r) = p :: addNl r := by
  cases p <;> first | rfl | cases h

theorem addNl_ne_nil (t : List PieceSyn) : addNl t ≠ [] := by
  unfold addNl; split <;> simp

theorem addNl_print (t : List PieceSyn) : print (addNl t) = print t ++ ['\n'] := by
  induction t with
  | nil => rfl
  | cons p t ih =>
    unfold addNl
    split
    · contradiction
    · rename_i s h
      obtain ⟨rfl, rfl⟩ := List.cons.inj h
      simp [print, PieceSyn.print]
    · rename_i q r _ h
      obtain ⟨rfl, rfl⟩ := List.cons.inj h
      simp only [print, List.flatMap_cons, List.append_assoc] at ih ⊢
      rw [ih]

/-- Induction following `addNl`. -/
theorem addNl_induction {P : List PieceSyn → List PieceSyn → Prop} (nil : P [] [.text ['\n']])
    (text : ∀ s, P [.text s] [.text (s ++ ['\n'])])
    (cons : ∀ p r, (p.isText = true → r ≠ []) → P r (addNl r) → P (p :: r) (p :: addNl r))
    (t : List PieceSyn) : P t (addNl t) := by
  induction t with
  | nil => exact nil
  | cons p t ih =>
    cases p with
    | text s =>
      cases t with
      | nil => exact text s
      | cons q r => exact cons _ _ (by simp) ih
    | openBrace => exact cons _ _ (by simp [PieceSyn.isText]) ih
    | closeBrace => exact cons _ _ (by simp [PieceSyn.isText]) ih
    | arg a b => exact cons _ _ (by simp [PieceSyn.isText]) ih

/-- The first piece is a text or not as before, unless the tree was empty. -/
theorem addNl_head (t : List PieceSyn) : t = [] ∨ ∃ p r q r', t = p :: r ∧ addNl t = q :: r' ∧ q.isText = p.isText := by
  refine addNl_induction (P := fun t u => t = [] ∨ ∃ p r q r', t = p :: r ∧ u = q :: r' ∧ q.isText = p.isText)
    (Or.inl rfl) (fun s => Or.inr ⟨_, _, _, _, rfl, rfl, rfl⟩) (fun p r _ _ => Or.inr ⟨_, _, _, _, rfl, rfl, rfl⟩) t

theorem merged_cons (p : PieceSyn) (t : List PieceSyn) :
    Merged (p :: t) ↔ (∀ q r, t = q :: r → p.isText = true → q.isText = false) ∧ Merged t := by
  cases t with
  | nil => simp [Merged]
  | cons q r => simp [Merged]

theorem addNl_good (E : Env) (t : List PieceSyn) (hd : Documented E t) (hs : Supported E t) :
    Documented E (addNl t) ∧ Supported E (addNl t) := by
  refine addNl_induction (P := fun t u => Documented E t → Supported E t → Documented E u ∧ Supported E u)
    ?_ ?_ ?_ t hd hs
  · intro _ _
    exact ⟨⟨by simp [PieceSyn.Documented], trivial⟩, ⟨by simp [PieceSyn.Supported], ⟨by simp [PieceSyn.emptySpec], trivial⟩⟩⟩
  · intro s hd _
    have := hd.1 (.text s) (by simp)
    refine ⟨⟨?_, trivial⟩, ⟨by simp [PieceSyn.Supported], ⟨by simp [PieceSyn.emptySpec], trivial⟩⟩⟩
    intro p hp
    obtain rfl := List.mem_singleton.1 hp
    exact ⟨by simp, by simpa using this.2.1, by simpa using this.2.2⟩
  · intro p r hr ih hd hs
    have hm := (merged_cons p r).1 hd.2
    obtain ⟨h1, h2⟩ := ih ⟨fun q hq => hd.1 q (by simp [hq]), hm.2⟩ ⟨fun q hq => hs.1 q (by simp [hq]), hs.2.2⟩
    refine ⟨⟨?_, ?_⟩, ⟨?_, ?_⟩⟩
    · intro q hq
      rcases List.mem_cons.1 hq with rfl | hq
      · exact hd.1 q (by simp)
      · exact h1.1 q hq
    · refine (merged_cons _ _).2 ⟨?_, h1.2⟩
      intro q r' e hp
      rcases addNl_head r with rfl | ⟨p', r1, q', r2, rfl, e2, h3⟩
      · exact absurd rfl (hr hp)
      · rw [e2] at e
        obtain ⟨rfl, rfl⟩ := List.cons.inj e
        rw [h3]
        exact hm.1 _ _ rfl hp
    · intro q hq
      rcases List.mem_cons.1 hq with rfl | hq
      · exact hs.1 q (by simp)
      · exact h2.1 q hq
    · refine ⟨fun hp => ?_, h2.2⟩
      have := hs.2.1 hp
      rw [addNl_print]
      cases hx : print r with
      | nil => rfl
      | cons c cs => rw [hx] at this; exact this

/-- Every tree that prints to a string ending in a newline is obtained by `addNl`. -/
theorem addNl_surj (E : Env) (t' : List PieceSyn) (s : Str) (hp : print t' = s ++ ['\n'])
    (hd : Documented E t') (hs : Supported E t') :
    ∃ t, t' = addNl t ∧ print t = s ∧ Documented E t ∧ Supported E t := by
  induction t' generalizing s with
  | nil => simp [print] at hp
  | cons p t' ih =>
    have hm := (merged_cons p t').1 hd.2
    by_cases ht : t' = []
    · subst ht
      cases p with
      | text u =>
        have e : u = s ++ ['\n'] := by simpa [print, PieceSyn.print] using hp
        subst e
        by_cases hse : s = []
        · subst hse
          exact ⟨[], rfl, rfl, ⟨by simp, trivial⟩, ⟨by simp, trivial⟩⟩
        · refine ⟨[.text s], rfl, by simp [print, PieceSyn.print], ⟨?_, trivial⟩,
            ⟨by simp [PieceSyn.Supported], ⟨by simp [PieceSyn.emptySpec], trivial⟩⟩⟩
          intro q hq
          obtain rfl := List.mem_singleton.1 hq
          have := hd.1 _ (List.mem_singleton.2 rfl)
          exact ⟨hse, fun h => this.2.1 (by simp [h]), fun h => this.2.2 (by simp [h])⟩
      | openBrace =>
        have := congrArg List.getLast? hp
        simp [print, PieceSyn.print] at this
      | closeBrace =>
        have := congrArg List.getLast? hp
        simp [print, PieceSyn.print] at this
      | arg ref spec =>
        simp only [print, List.flatMap_cons, List.flatMap_nil, List.append_nil, PieceSyn.print] at hp
        have := (List.append_inj' hp rfl).2
        simp at this
    · -- the last character is in the rest
      have hlast : ∃ s', print t' = s' ++ ['\n'] ∧ s = p.print ++ s' := by
        have hne : print t' ≠ [] := by
          cases t' with
          | nil => exact absurd rfl ht
          | cons q r =>
            have hq := hd.1 q (by simp)
            cases q with
            | text u => simp [print, PieceSyn.print, hq.1]
            | openBrace => simp [print, PieceSyn.print]
            | closeBrace => simp [print, PieceSyn.print]
            | arg ref spec => simp [print, PieceSyn.print]
        have e : p.print ++ print t' = s ++ ['\n'] := by simpa [print] using hp
        have h1 := List.dropLast_concat_getLast hne
        rw [← h1, ← List.append_assoc] at e
        have := List.append_inj' e rfl
        obtain ⟨h2, h3⟩ := this
        refine ⟨(print t').dropLast, ?_, h2.symm⟩
        rw [← h3]; exact h1.symm
      obtain ⟨s', h1, rfl⟩ := hlast
      obtain ⟨t, rfl, h2, h3, h4⟩ := ih s' h1 ⟨fun q hq => hd.1 q (by simp [hq]), hm.2⟩
        ⟨fun q hq => hs.1 q (by simp [hq]), hs.2.2⟩
      refine ⟨p :: t, ?_, by simp [print] at h2 ⊢; exact h2, ⟨?_, ?_⟩, ⟨?_, ?_⟩⟩
      · cases hpt : p.isText with
        | false => rw [addNl_nontext p t hpt]
        | true =>
          cases t with
          | nil =>
            have := hm.1 (.text ['\n']) [] rfl hpt
            cases this
          | cons q r => cases p <;> first | rfl | cases hpt
      · intro q hq
        rcases List.mem_cons.1 hq with rfl | hq
        · exact hd.1 q (by simp)
        · exact h3.1 q hq
      · refine (merged_cons _ _).2 ⟨?_, h3.2⟩
        intro q r e hpt
        rcases addNl_head t with rfl | ⟨p', r1, q', r2, rfl, e2, h5⟩
        · cases e
        · obtain ⟨rfl, rfl⟩ := List.cons.inj e
          rw [← h5]
          exact hm.1 _ _ e2 hpt
      · intro q hq
        rcases List.mem_cons.1 hq with rfl | hq
        · exact hs.1 q (by simp)
        · exact h4.1 q hq
      · refine ⟨fun he => ?_, h4.2⟩
        have := hs.2.1 he
        rw [addNl_print] at this
        cases hx : print t with
        | nil => rfl
        | cons c cs => rw [hx] at this; exact this

/-! ### References are not affected -/

theorem addNl_split (t : List PieceSyn) : ∃ u, (t = u ∧ addNl t = u ++ [.text ['\n']]) ∨
    ∃ s, t = u ++ [.text s] ∧ addNl t = u ++ [.text (s ++ ['\n'])] := by
  refine addNl_induction (P := fun t v => ∃ u, (t = u ∧ v = u ++ [.text ['\n']]) ∨
    ∃ s, t = u ++ [.text s] ∧ v = u ++ [.text (s ++ ['\n'])]) ?_ ?_ ?_ t
  · exact ⟨[], Or.inl ⟨rfl, rfl⟩⟩
  · exact fun s => ⟨[], Or.inr ⟨s, rfl, rfl⟩⟩
  · rintro p r - ⟨u, ⟨rfl, h⟩ | ⟨s, rfl, h⟩⟩
    · exact ⟨p :: r, Or.inl ⟨rfl, by rw [h]; rfl⟩⟩
    · exact ⟨p :: u, Or.inr ⟨s, rfl, by rw [h]; rfl⟩⟩

/-- A placeholder in a tree ending in a text is in the tree without it, and vice versa. -/
theorem split_last_text (u before after : List PieceSyn) (s : Str) (ref : Option ArgRef) (spec : Option SpecSyn) :
    u ++ [.text s] = before ++ .arg ref spec :: after →
    ∃ after', u = before ++ .arg ref spec :: after' ∧ after = after' ++ [.text s] := by
  intro h
  rcases List.eq_nil_or_concat after with rfl | ⟨after', q, rfl⟩
  · have := congrArg List.getLast? h
    simp at this
  · have h' : u ++ [PieceSyn.text s] = (before ++ .arg ref spec :: after') ++ [q] := by simpa using h
    obtain ⟨h1, h2⟩ := List.append_inj' h' rfl
    obtain rfl := (List.cons.inj h2).1
    exact ⟨after', h1, by simp⟩

theorem text_accept (args : List (MacroArg X)) (u : List PieceSyn) (s : Str) :
    (RefsOk args (u ++ [.text s]) ∧ AllUsed args (u ++ [.text s])) ↔ (RefsOk args u ∧ AllUsed args u) := by
  have h1 : RefsOk args (u ++ [.text s]) ↔ RefsOk args u := by
    constructor
    · intro h before ref spec after e
      exact h before ref spec (after ++ [.text s]) (by rw [e]; simp)
    · intro h before ref spec after e
      obtain ⟨after', e', -⟩ := split_last_text u before after s ref spec e
      exact h before ref spec after' e'
  have h2 : ∀ i, UsesPositional (u ++ [.text s]) i ↔ UsesPositional u i := by
    intro i
    constructor
    · rintro ⟨before, ref, spec, after, e, h⟩
      obtain ⟨after', e', -⟩ := split_last_text u before after s ref spec e
      exact ⟨before, ref, spec, after', e', h⟩
    · rintro ⟨before, ref, spec, after, e, h⟩
      exact ⟨before, ref, spec, after ++ [.text s], by rw [e]; simp, h⟩
  have h3 : ∀ n, UsesName (u ++ [.text s]) n ↔ UsesName u n := by
    intro n
    simp [UsesName]
  unfold AllUsed
  rw [h1]
  simp only [h2, h3]

theorem addNl_accept (args : List (MacroArg X)) (t : List PieceSyn) :
    (RefsOk args (addNl t) ∧ AllUsed args (addNl t)) ↔ (RefsOk args t ∧ AllUsed args t) := by
  obtain ⟨u, ⟨rfl, h⟩ | ⟨s, rfl, h⟩⟩ := addNl_split t
  · rw [h, text_accept]
  · rw [h, text_accept, text_accept]

/-- `format_args_nl!` is `format_args!` with a newline at the end of the format string. -/
theorem formatArgsNlMacro_eq (E : Env) (format : Str) (args : List (MacroArg X)) :
    formatArgsNlMacro E format args = formatArgsMacro E (format ++ ['\n']) args := by
  unfold formatArgsNlMacro formatArgsMacro ArgsInput.parse
  cases splitArgs false [] [] args <;> rfl

theorem formatArgsNl_eq (E : Env) (format : Str) (args : List (MacroArg ArgVal)) (scope : Str → ArgVal) :
    formatArgsNl E format args scope = formatArgs E (format ++ ['\n']) args scope := by
  unfold formatArgsNl formatArgs ArgsInput.parse
  cases splitArgs false [] [] args <;> rfl

/-- C41: `writeln!` accepts exactly the calls `write!` accepts. -/
theorem C41_accepts_same {E : Env} (hE : E.Lawful) (format : Str) (args : List (MacroArg X)) :
    (∃ x, formatArgsNlMacro E format args = .ok x) ↔ (∃ x, formatArgsMacro E format args = .ok x) := by
  rw [formatArgsNlMacro_eq, C39_compiles_iff hE, C39_compiles_iff hE]
  constructor
  · rintro ⟨t', h1, hd, hs, hp, hru⟩
    obtain ⟨t, rfl, h2, h3, h4⟩ := addNl_surj E t' format h1 hd hs
    exact ⟨t, h2, h3, h4, hp, (addNl_accept args t).1 hru⟩
  · rintro ⟨t, rfl, hd, hs, hp, hru⟩
    obtain ⟨h1, h2⟩ := addNl_good E t hd hs
    exact ⟨addNl t, addNl_print t, h1, h2, hp, (addNl_accept args t).2 hru⟩

theorem C41_accepts_same_values {E : Env} (hE : E.Lawful) (format : Str) (args : List (MacroArg ArgVal))
    (scope : Str → ArgVal) :
    (∃ x, formatArgsNl E format args scope = .ok x) ↔ (∃ x, formatArgs E format args scope = .ok x) := by
  have key : ∀ format, (∃ x, formatArgs E format args scope = .ok x) ↔ (∃ x, formatArgsMacro E format args = .ok x) := by
    intro format
    have : formatArgs E format args scope = (formatArgsMacro E format args).map
        (fun x => ⟨runStmts ⟨x.positional, x.named, x.implicit.map scope⟩ x.statements⟩) := by
      unfold formatArgs formatArgsMacro
      cases ArgsInput.parse format args with
      | error e => rfl
      | ok i =>
        simp only [bind, Except.bind]
        cases formatArgsImpl E i <;> rfl
    rw [this]
    cases formatArgsMacro E format args <;> simp [Except.map]
  rw [formatArgsNl_eq, key, ← formatArgsNlMacro_eq, key]
  exact C41_accepts_same hE format args

/-- Text output followed by more. -/
theorem andThen_text (x : List Chunk × Res FmtError Unit) (s : Str) (st : Style) :
    andThen x ([(s, st)], .ok ()) =
      (x.1 ++ (if x.2 = .ok () then [(s, st)] else []), x.2) := by
  rcases x with ⟨a, _ | _ | _ | _⟩ <;> simp [andThen]

theorem treeOutput_last_text (args : List (MacroArg ArgVal)) (scope : Str → ArgVal) (st : Style)
    (u : List PieceSyn) (s : Str) :
    treeOutput args scope st [] (u ++ [.text s]) =
      ((treeOutput args scope st [] u).1 ++ (if (treeOutput args scope st [] u).2 = .ok () then [(s, st)] else []),
        (treeOutput args scope st [] u).2) := by
  rw [treeOutput_append, treeOutput_cons]
  have : andThen (pieceOutput args scope ([] ++ u) st (.text s))
      (treeOutput args scope st ([] ++ u ++ [.text s]) []) = ([(s, st)], .ok ()) := rfl
  rw [this, andThen_text]

/-- C41: `writeln!` writes what `write!` writes, followed, if that was `Ok`, by a newline in the current
style, and returns the same. -/
theorem C41_writeln {E : Env} (hE : E.Lawful) (format : Str) (args : List (MacroArg ArgVal))
    (scope : Str → ArgVal) (x nl : Arguments) (h : formatArgs E format args scope = .ok x)
    (hnl : formatArgsNl E format args scope = .ok nl) (st : Style) (a : FormatterArgs) :
    (writes (Display.fmt nl) st a).2 = (writes (Display.fmt x) st a).2 ∧
    flatten (writes (Display.fmt nl) st a).1 = flatten (writes (Display.fmt x) st a).1 ++
      (if (writes (Display.fmt x) st a).2 = .ok () then [('\n', st)] else []) := by
  rw [formatArgsNl_eq] at hnl
  obtain ⟨t, rfl, hd, hs, -⟩ := formatArgs_ok_tree hE h
  obtain ⟨h1, h2⟩ := addNl_good E t hd hs
  rw [(C46_end_to_end hE _ args scope x h).2 t ⟨rfl, hd, hs⟩ st a,
    (C46_end_to_end hE _ args scope nl hnl).2 (addNl t) ⟨addNl_print t, h1, h2⟩ st a]
  obtain ⟨u, ⟨rfl, e⟩ | ⟨s, rfl, e⟩⟩ := addNl_split t
  · rw [e, treeOutput_last_text]
    refine ⟨rfl, ?_⟩
    rw [flatten_append]
    split <;> rfl
  · rw [e, treeOutput_last_text, treeOutput_last_text]
    refine ⟨rfl, ?_⟩
    simp only [flatten_append, List.append_assoc]
    split
    · simp [flatten, paint]
    · rfl

/-- C41: `writeln!(dst)` writes just a newline: it is `writeln!(dst, "")`. -/
theorem C41_empty {W A : Type} (E : Env) (writeFmt : Arguments → W → A) (dst : W) :
    writelnMacroEmpty E writeFmt dst = writelnMacro E writeFmt dst [] [] noScope ∧
    ∃ x : Arguments, writelnMacroEmpty E writeFmt dst = .ok (writeFmt x dst) ∧
      ∀ st a, writes (Display.fmt x) st a = ([(['\n'], st)], .ok ()) := by
  refine ⟨rfl, ?_⟩
  exact ⟨_, rfl, fun st a => rfl⟩

/-- C41 as the user sees it: what `write!` and `writeln!` pass to the destination's `write_fmt`. -/
theorem C41_macros {W A : Type} {E : Env} (writeFmt : Arguments → W → A) (dst : W) (format : Str)
    (args : List (MacroArg ArgVal)) (scope : Str → ArgVal) (r : A)
    (h : writelnMacro E writeFmt dst format args scope = .ok r) :
    ∃ nl, formatArgsNl E format args scope = .ok nl ∧ r = writeFmt nl dst := by
  unfold writelnMacro at h
  cases hx : formatArgsNl E format args scope with
  | error e => rw [hx] at h; cases h
  | ok nl =>
    rw [hx] at h
    exact ⟨nl, rfl, (Except.ok.inj h).symm⟩

example : (formatArgsNl asciiEnv (str "{:}") [.positional (textArg (str "x"))] noScope).toOption.map
    (fun x => (writes (Display.fmt x) .default .default)) =
    some ([(['x'], .default), (['\n'], .default)], .ok ()) ∧
    (formatArgs asciiEnv (str "{:}") [.positional (textArg (str "x"))] noScope).toOption.map
    (fun x => (writes (Display.fmt x) .default .default)) = some ([(['x'], .default)], .ok ()) := by
  decide +kernel

end Stylish.Props
