import Verif.Props.MacroNl
import Verif.Props.MacroStyle
import Verif.Spec.Spelling
/-
C56: spellings of the same call. C57: calls one after the other.
-/

namespace Stylish.Props

open Nom Format Spec Spec.Syntax

/-! ## C56 -/

theorem specAlike_style {s s' : SpecSyn} (h : SpecAlike s s') (st : Style) : s.style st = s'.style st := by
  unfold SpecSyn.style
  rw [h.fg, h.bg, h.intensity]

theorem literal_of_toCount (c c' : CountSyn) (h : c.toCount = c'.toCount) :
    c.literal = c'.literal ∧ ((∃ r, c = .param r) ↔ ∃ r, c' = .param r) := by
  cases c <;> cases c' <;> simp_all [CountSyn.toCount, CountSyn.literal]

theorem specAlike_options {s s' : SpecSyn} (h : SpecAlike s s') : s.options = s'.options := by
  have hw : s.width.bind CountSyn.literal = s'.width.bind CountSyn.literal := by
    have := h.width
    cases h1 : s.width <;> cases h2 : s'.width <;> rw [h1, h2] at this <;> simp at this ⊢
    exact (literal_of_toCount _ _ this).1
  have hp : s.precision.bind PrecisionSyn.literal = s'.precision.bind PrecisionSyn.literal := by
    have := h.precision
    rcases h1 : s.precision with _ | _ | _ <;> rcases h2 : s'.precision with _ | _ | _ <;> rw [h1, h2] at this <;>
      simp [PrecisionSyn.toCount, PrecisionSyn.literal] at this ⊢
    exact (literal_of_toCount _ _ this).1
  unfold SpecSyn.options
  rw [h.align, h.sign, h.alternate, h.zero, hw, hp, h.ty]

theorem noParams_iff (s : SpecSyn) : s.NoParams ↔
    (∀ c, s.width.map CountSyn.toCount = some c → ∀ r, c ≠ .Parameter r) ∧
    (∀ c, s.precision.map PrecisionSyn.toCount = some (some c) → ∀ r, c ≠ .Parameter r) := by
  unfold SpecSyn.NoParams
  apply and_congr
  · rcases s.width with _ | _ | _ <;> simp [CountSyn.toCount]
  · rcases s.precision with _ | ⟨_ | _⟩ | _ <;> simp [CountSyn.toCount, PrecisionSyn.toCount]

theorem specAlike_noParams {s s' : SpecSyn} (h : SpecAlike s s') : s.NoParams ↔ s'.NoParams := by
  rw [noParams_iff, noParams_iff, h.width, h.precision]

theorem specAlike_argRun {s s' : SpecSyn} (h : SpecAlike s s') {W : Type} [Write W] (v : ArgVal) (st : Style) (w : W) :
    Syntax.argRun v s st w = Syntax.argRun v s' st w := by
  unfold Syntax.argRun
  rw [specAlike_style h, specAlike_options h, h.ty]

theorem valueFor_target {X : Type} (args : List (MacroArg X)) (scope : Str → X) (b : List PieceSyn) (ref : Option ArgRef) :
    valueFor args scope b ref = match target (bareCount b) ref with
      | .inl i => (positionals args)[i]?
      | .inr n => some ((lastNamed args n).getD (scope n)) := by
  rcases ref with _ | _ | _ <;> rfl

theorem refExists_target {X : Type} (args : List (MacroArg X)) (b : List PieceSyn) (ref : Option ArgRef) :
    RefExists args b ref = match target (bareCount b) ref with
      | .inl i => i < (positionals args).length
      | .inr n => n ∈ (nameds args).map Prod.fst ∨
          n ∉ [str "_", str "super", str "self", str "Self", str "crate"] := by
  rcases ref with _ | _ | _ <;> rfl

theorem bareCount_arg (b : List PieceSyn) (ref : Option ArgRef) (spec : Option SpecSyn) :
    bareCount (b ++ [.arg ref spec]) = if ref = none then bareCount b + 1 else bareCount b := by
  rcases ref with _ | _ <;> simp [bareCount, PieceSyn.isBare]

theorem bareCount_other (b : List PieceSyn) (p : PieceSyn) (h : p.isBare = false) :
    bareCount (b ++ [p]) = bareCount b := by
  simp [bareCount, h]

theorem alike_treeRun {k k' : Nat} {t t' : List PieceSyn} (h : Alike k k' t t') (args : List (MacroArg ArgVal))
    (scope : Str → ArgVal) (st : Style) {W : Type} [Write W] : ∀ (b b' : List PieceSyn), bareCount b = k →
    bareCount b' = k' → ∀ w : W, Syntax.treeRun args scope st b t w = Syntax.treeRun args scope st b' t' w := by
  induction h with
  | nil => intros; rfl
  | text s _ ih =>
    intro b b' hb hb' w
    simp only [Syntax.treeRun, pieceRun]
    rcases Write.writeStr s st w with ⟨r, w'⟩
    rcases r with _ | _ | _ | _ <;> try rfl
    exact ih _ _ (by rw [bareCount_other _ _ rfl, hb]) (by rw [bareCount_other _ _ rfl, hb']) w'
  | openBrace _ ih =>
    intro b b' hb hb' w
    simp only [Syntax.treeRun, pieceRun]
    rcases Write.writeStr ['{'] st w with ⟨r, w'⟩
    rcases r with _ | _ | _ | _ <;> try rfl
    exact ih _ _ (by rw [bareCount_other _ _ rfl, hb]) (by rw [bareCount_other _ _ rfl, hb']) w'
  | closeBrace _ ih =>
    intro b b' hb hb' w
    simp only [Syntax.treeRun, pieceRun]
    rcases Write.writeStr ['}'] st w with ⟨r, w'⟩
    rcases r with _ | _ | _ | _ <;> try rfl
    exact ih _ _ (by rw [bareCount_other _ _ rfl, hb]) (by rw [bareCount_other _ _ rfl, hb']) w'
  | arg ht hs _ ih =>
    rename_i ref ref' spec spec' _
    intro b b' hb hb' w
    have hv : valueFor args scope b ref = valueFor args scope b' ref' := by
      rw [valueFor_target, valueFor_target, hb, hb', ht]
    have hp : pieceRun args scope b st (.arg ref spec) w = pieceRun args scope b' st (.arg ref' spec') w := by
      simp only [pieceRun, hv]
      cases valueFor args scope b' ref' with
      | none => rfl
      | some v => exact specAlike_argRun hs v st w
    simp only [Syntax.treeRun, hp]
    rcases pieceRun args scope b' st (.arg ref' spec') w with ⟨r, w'⟩
    rcases r with _ | _ | _ | _ <;> try rfl
    exact ih _ _ (by rw [bareCount_arg, hb]) (by rw [bareCount_arg, hb']) w'

theorem alike_symm {k k' : Nat} {t t' : List PieceSyn} (h : Alike k k' t t') : Alike k' k t' t := by
  induction h with
  | nil => exact .nil _ _
  | text s _ ih => exact .text s ih
  | openBrace _ ih => exact .openBrace ih
  | closeBrace _ ih => exact .closeBrace ih
  | arg ht hs _ ih =>
    refine .arg ht.symm ⟨hs.ty.symm, hs.align.symm, hs.sign.symm, hs.alternate.symm, hs.zero.symm, hs.width.symm,
      hs.precision.symm, hs.fg.symm, hs.bg.symm, hs.intensity.symm⟩ ih

/-- Every placeholder of a tree has its counterpart. -/
theorem alike_split {k k' : Nat} {t t' : List PieceSyn} (h : Alike k k' t t') (ref : Option ArgRef)
    (spec : Option SpecSyn) : ∀ before after, t = before ++ .arg ref spec :: after →
    ∃ before' ref' spec' after', t' = before' ++ .arg ref' spec' :: after' ∧
      target (k + bareCount before) ref = target (k' + bareCount before') ref' ∧
      SpecAlike (specOf spec) (specOf spec') := by
  have step : ∀ {k k' : Nat} {t t' : List PieceSyn} {p : PieceSyn}, p.isBare = false →
      (∀ before after, t = before ++ .arg ref spec :: after → ∃ before' ref' spec' after',
        t' = before' ++ .arg ref' spec' :: after' ∧
        target (k + bareCount before) ref = target (k' + bareCount before') ref' ∧
        SpecAlike (specOf spec) (specOf spec')) →
      (∀ r s, p ≠ .arg r s) → ∀ before after, p :: t = before ++ .arg ref spec :: after →
      ∃ before' ref' spec' after', p :: t' = before' ++ .arg ref' spec' :: after' ∧
        target (k + bareCount before) ref = target (k' + bareCount before') ref' ∧
        SpecAlike (specOf spec) (specOf spec') := by
    intro k k' t t' p hp ih hne before after e
    rcases before with _ | ⟨q, before⟩
    · exact absurd (List.cons.inj e).1 (hne _ _)
    · obtain ⟨rfl, e'⟩ := List.cons.inj e
      clear e
      have e := e'
      clear e'
      obtain ⟨b', r', s', a', e', h1, h2⟩ := ih before after e
      refine ⟨p :: b', r', s', a', by rw [e']; rfl, ?_, h2⟩
      have c : ∀ x, bareCount (p :: x) = bareCount x := fun x => by simp [bareCount, hp]
      rw [c, c]; exact h1
  induction h with
  | nil => intro before after e; simp at e
  | text s _ ih => exact step rfl ih (by simp)
  | openBrace _ ih => exact step rfl ih (by simp)
  | closeBrace _ ih => exact step rfl ih (by simp)
  | arg ht hs _ ih =>
    rename_i k k' t t' r r' s s' _
    intro before after e
    rcases before with _ | ⟨q, before⟩
    · obtain ⟨e1, -⟩ := List.cons.inj e
      obtain ⟨rfl, rfl⟩ := PieceSyn.arg.inj e1
      exact ⟨[], r', s', t', rfl, ht, hs⟩
    · obtain ⟨rfl, e'⟩ := List.cons.inj e
      clear e
      have e := e'
      clear e'
      obtain ⟨b', r1, s1, a1, e1, h1, h2⟩ := ih before after e
      refine ⟨.arg r' s' :: b', r1, s1, a1, by rw [e1]; rfl, ?_, h2⟩
      have c : ∀ m q x y, m + bareCount (.arg x y :: q) = (if x = none then m + 1 else m) + bareCount q := by
        intro m q x y
        rcases x with _ | _
        · simp only [bareCount, List.countP_cons, PieceSyn.isBare, if_true]; omega
        · simp [bareCount, PieceSyn.isBare]
      rw [c, c]; exact h1

theorem alike_refsOk {X : Type} {t t' : List PieceSyn} (h : Alike 0 0 t t') (args : List (MacroArg X))
    (hr : RefsOk args t) : RefsOk args t' := by
  intro before ref spec after e
  obtain ⟨b', r', s', a', e', h1, h2⟩ := alike_split (alike_symm h) ref spec before after e
  obtain ⟨h3, h4⟩ := hr b' r' s' a' e'
  refine ⟨?_, (specAlike_noParams h2).2 h4⟩
  simp only [Nat.zero_add] at h1
  rw [refExists_target, h1, ← refExists_target]
  exact h3

theorem usesPositional_target (t : List PieceSyn) (i : Nat) : UsesPositional t i ↔
    ∃ before ref spec after, t = before ++ .arg ref spec :: after ∧ target (bareCount before) ref = .inl i := by
  constructor
  · rintro ⟨b, r, s, a, e, ⟨rfl, rfl⟩ | ⟨ds, rfl, rfl⟩⟩
    · exact ⟨b, none, s, a, e, rfl⟩
    · exact ⟨b, _, s, a, e, rfl⟩
  · rintro ⟨b, r, s, a, e, h⟩
    refine ⟨b, r, s, a, e, ?_⟩
    rcases r with _ | ds | n
    · exact .inl ⟨rfl, (Sum.inl.inj h).symm⟩
    · exact .inr ⟨ds, rfl, (Sum.inl.inj h).symm⟩
    · cases h

theorem usesName_target (t : List PieceSyn) (n : Str) : UsesName t n ↔
    ∃ before ref spec after, t = before ++ .arg ref spec :: after ∧ target (bareCount before) ref = .inr n := by
  constructor
  · rintro ⟨s, h⟩
    obtain ⟨b, a, e⟩ := List.append_of_mem h
    exact ⟨b, _, s, a, e, rfl⟩
  · rintro ⟨b, r, s, a, e, h⟩
    rcases r with _ | ds | m
    · cases h
    · cases h
    · obtain rfl := Sum.inr.inj h
      exact ⟨s, by rw [e]; simp⟩

theorem alike_allUsed {X : Type} {t t' : List PieceSyn} (h : Alike 0 0 t t') (args : List (MacroArg X))
    (hr : AllUsed args t) : AllUsed args t' := by
  refine ⟨fun i hi => ?_, fun n hn => ?_⟩
  · obtain ⟨b, r, s, a, e, h1⟩ := (usesPositional_target t i).1 (hr.1 i hi)
    obtain ⟨b', r', s', a', e', h2, -⟩ := alike_split h r s b a e
    simp only [Nat.zero_add] at h2
    exact (usesPositional_target t' i).2 ⟨b', r', s', a', e', by rw [← h2, h1]⟩
  · obtain ⟨b, r, s, a, e, h1⟩ := (usesName_target t n).1 (hr.2 n hn)
    obtain ⟨b', r', s', a', e', h2, -⟩ := alike_split h r s b a e
    simp only [Nat.zero_add] at h2
    exact (usesName_target t' n).2 ⟨b', r', s', a', e', by rw [← h2, h1]⟩

/-- What makes two calls have the same effect. -/
theorem sameEffect_of {E : Env} (hE : E.Lawful) {t t' : List PieceSyn} (hd : Documented E t) (hs : Supported E t)
    (hd' : Documented E t') (hs' : Supported E t') (args args' : List (MacroArg ArgVal)) (scope scope' : Str → ArgVal)
    (hacc : (PositionalFirst args ∧ RefsOk args t ∧ AllUsed args t) ↔
      (PositionalFirst args' ∧ RefsOk args' t' ∧ AllUsed args' t'))
    (hrun : ∀ (W : Type) [Write W] st (w : W), treeRun args scope st [] t w = treeRun args' scope' st [] t' w) :
    SameEffect (formatArgs E (print t) args scope) (formatArgs E (print t') args' scope') := by
  rcases formatArgs_tree hE args scope t hd hs with ⟨a, e⟩ | ⟨na, e, he⟩
  · rcases formatArgs_tree hE args' scope' t' hd' hs' with ⟨a', e'⟩ | ⟨na', e', he'⟩
    · rw [e, e']
      refine ⟨⟨fun _ => ⟨_, rfl⟩, fun _ => ⟨_, rfl⟩⟩, ?_⟩
      intro x x' h h' W _ f
      obtain rfl := Except.ok.inj h
      obtain rfl := Except.ok.inj h'
      have h1 := (treeProg_spec args scope t a.2.1 f.style f.format).2 W f.write
      have h2 := (treeProg_spec args' scope' t' a'.2.1 f.style f.format).2 W f.write
      rw [← hrun, ← h1] at h2
      exact h2.symm
    · exact absurd (hacc.1 a) na'
  · rcases formatArgs_tree hE args' scope' t' hd' hs' with ⟨a', e'⟩ | ⟨na', e', he'⟩
    · exact absurd (hacc.2 a') na
    · rw [he, he']
      refine ⟨⟨fun ⟨_, h⟩ => (nomatch h), fun ⟨_, h⟩ => (nomatch h)⟩, fun _ _ h => (nomatch h)⟩

/-- C56: two format strings that are spellings of the same thing can be exchanged in any call. -/
theorem C56_spellings {E : Env} (hE : E.Lawful) (format format' : Str) (t t' : List PieceSyn)
    (ht : Reads E format t) (ht' : Reads E format' t') (h : Alike 0 0 t t') (args : List (MacroArg ArgVal))
    (scope : Str → ArgVal) :
    SameEffect (formatArgs E format args scope) (formatArgs E format' args scope) := by
  obtain ⟨rfl, hd, hs⟩ := ht
  obtain ⟨rfl, hd', hs'⟩ := ht'
  exact sameEffect_of hE hd hs hd' hs' args args scope scope
    ⟨fun ⟨a, b, c⟩ => ⟨a, alike_refsOk h args b, alike_allUsed h args c⟩,
      fun ⟨a, b, c⟩ => ⟨a, alike_refsOk (alike_symm h) args b, alike_allUsed (alike_symm h) args c⟩⟩
    (fun W _ st w => alike_treeRun h args scope st [] [] rfl rfl w)

theorem specAlike_refl (s : SpecSyn) : SpecAlike s s := ⟨rfl, rfl, rfl, rfl, rfl, rfl, rfl, rfl, rfl, rfl⟩

theorem numbered_alike {k : Nat} {t t' : List PieceSyn} (h : Numbered k t t') : ∀ k', Alike k k' t t' := by
  induction h with
  | nil => exact fun _ => .nil _ _
  | keep hp _ ih =>
    rename_i p _ _ _
    intro k'
    rcases p with s | _ | _ | ⟨_ | r, spec⟩
    · exact .text s (ih _)
    · exact .openBrace (ih _)
    · exact .closeBrace (ih _)
    · cases hp
    · refine .arg ?_ (specAlike_refl _) (ih _)
      rcases r with _ | _ <;> rfl
  | number hn hv _ ih =>
    intro k'
    exact .arg (congrArg Sum.inl hv.symm) (specAlike_refl _) (ih _)

theorem numbered_print {k : Nat} {t t' : List PieceSyn} (h : Numbered k t t') :
    startsWithAlign (print t) = startsWithAlign (print t') := by
  induction h with
  | nil => rfl
  | keep hp h' ih =>
    rename_i p _ _
    rcases p with s | _ | _ | ⟨r, spec⟩
    · rcases s with _ | ⟨c, s⟩
      · exact ih
      · rfl
    · rfl
    · rfl
    · rfl
  | number => rfl

theorem numbered_good {E : Env} {k : Nat} {t t' : List PieceSyn} (h : Numbered k t t')
    (hn : k + bareCount t ≤ E.usizeMax + 1) (hd : Documented E t) (hs : Supported E t) :
    Documented E t' ∧ Supported E t' := by
  induction h with
  | nil => exact ⟨hd, hs⟩
  | keep hp h' ih =>
    rename_i k p t t'
    have hc : bareCount (p :: t) = bareCount t := by simp [bareCount, hp]
    rw [hc] at hn
    have hd0 : Documented E t := ⟨fun q hq => hd.1 q (List.mem_cons_of_mem _ hq), ((merged_cons p t).1 hd.2).2⟩
    have hs0 : Supported E t := ⟨fun q hq => hs.1 q (List.mem_cons_of_mem _ hq), hs.2.2⟩
    obtain ⟨hd1, hs1⟩ := ih hn hd0 hs0
    refine ⟨⟨?_, ?_⟩, ?_, ?_, hs1.2⟩
    · intro q hq
      rcases List.mem_cons.1 hq with rfl | hq
      · exact hd.1 _ (List.mem_cons_self ..)
      · exact hd1.1 q hq
    · rw [merged_cons]
      refine ⟨?_, hd1.2⟩
      have := ((merged_cons p t).1 hd.2).1
      cases h' with
      | nil => exact this
      | keep _ _ =>
        intro q r e
        exact this q _ (by rw [(List.cons.inj e).1])
      | number =>
        intro q r e _
        rw [← (List.cons.inj e).1]; rfl
    · intro q hq
      rcases List.mem_cons.1 hq with rfl | hq
      · exact hs.1 _ (List.mem_cons_self ..)
      · exact hs1.1 q hq
    · rw [← numbered_print h']; exact hs.2.1
  | number hN hv h' ih =>
    rename_i k ds spec t t'
    have hc : bareCount (.arg none spec :: t) = bareCount t + 1 := by
      simp [bareCount, List.countP_cons, PieceSyn.isBare]
    rw [hc] at hn
    have hd0 : Documented E t := ⟨fun q hq => hd.1 q (List.mem_cons_of_mem _ hq), ((merged_cons _ t).1 hd.2).2⟩
    have hs0 : Supported E t := ⟨fun q hq => hs.1 q (List.mem_cons_of_mem _ hq), hs.2.2⟩
    obtain ⟨hd1, hs1⟩ := ih (by omega) hd0 hs0
    refine ⟨⟨?_, ?_⟩, ?_, ?_, hs1.2⟩
    · intro q hq
      rcases List.mem_cons.1 hq with rfl | hq
      · refine ⟨?_, (hd.1 _ (List.mem_cons_self ..)).2⟩
        rintro r ⟨⟩
        exact hN
      · exact hd1.1 q hq
    · rw [merged_cons]
      exact ⟨(by intro q r _ e; cases e), hd1.2⟩
    · intro q hq
      rcases List.mem_cons.1 hq with rfl | hq
      · refine ⟨?_, (hs.1 _ (List.mem_cons_self ..)).2⟩
        rintro r ⟨⟩
        show numeralValue ds ≤ _
        omega
      · exact hs1.1 q hq
    · rw [← numbered_print h']
      intro e
      exact hs.2.1 (by cases spec <;> exact e)

/-- C56: `{}` means the same as the number of the argument written out: writing in every placeholder without a
reference how many such placeholders are before it (as a decimal numeral, possibly with leading zeros) changes
nothing. (The numbers must fit `usize`.) -/
theorem C56_numbers {E : Env} (hE : E.Lawful) (format : Str) (t t' : List PieceSyn) (ht : Reads E format t)
    (h : Numbered 0 t t') (hn : bareCount t ≤ E.usizeMax + 1) (args : List (MacroArg ArgVal))
    (scope : Str → ArgVal) :
    Reads E (print t') t' ∧
    SameEffect (formatArgs E format args scope) (formatArgs E (print t') args scope) := by
  obtain ⟨hd, hs⟩ := numbered_good h (by omega) ht.2.1 ht.2.2
  exact ⟨⟨rfl, hd, hs⟩, C56_spellings hE format _ t t' ht ⟨rfl, hd, hs⟩ (numbered_alike h 0) args scope⟩

/-! ### The same tree with other arguments -/

theorem treeRun_values (args args' : List (MacroArg ArgVal)) (scope scope' : Str → ArgVal) (st : Style) {W : Type}
    [Write W] (t : List PieceSyn) : ∀ (b : List PieceSyn),
    (∀ before ref spec after, t = before ++ .arg ref spec :: after →
      valueFor args scope (b ++ before) ref = valueFor args' scope' (b ++ before) ref) → ∀ w : W,
    treeRun args scope st b t w = treeRun args' scope' st b t w := by
  induction t with
  | nil => intros; rfl
  | cons p t ih =>
    intro b h w
    have hp : pieceRun args scope b st p w = pieceRun args' scope' b st p w := by
      rcases p with s | _ | _ | ⟨r, spec⟩ <;> try rfl
      have := h [] r spec t rfl
      rw [List.append_nil] at this
      simp only [pieceRun, this]
    simp only [treeRun, hp]
    rcases pieceRun args' scope' b st p w with ⟨r, w'⟩
    rcases r with _ | _ | _ | _ <;> try rfl
    refine ih _ (fun before ref spec after e => ?_) w'
    have := h (p :: before) ref spec after (by rw [e]; rfl)
    simpa using this

theorem perm_nodup_last {X : Type} {ns ns' : List (Str × X)} (h : ns.Perm ns') (hn : (ns.map Prod.fst).Nodup) (n : Str) :
    (ns.filter (fun p => p.1 = n)).getLast? = (ns'.filter (fun p => p.1 = n)).getLast? := by
  have h1 := h.filter (fun p => decide (p.1 = n))
  have h2 : (ns.filter (fun p => decide (p.1 = n))).length ≤ 1 := by
    clear h h1
    induction ns with
    | nil => simp
    | cons p ns ih =>
      simp only [List.map_cons, List.nodup_cons] at hn
      by_cases hp : p.1 = n
      · have : ns.filter (fun p => decide (p.1 = n)) = [] := by
          rw [List.filter_eq_nil_iff]
          intro q hq
          simp only [decide_eq_true_eq]
          rintro hq'
          exact hn.1 (by rw [hp, ← hq']; exact List.mem_map_of_mem hq)
        rw [List.filter_cons_of_pos (by simpa using hp), this]
        simp
      · rw [List.filter_cons_of_neg (by simpa using hp)]
        exact ih hn.2
  rcases hA : ns.filter (fun p => decide (p.1 = n)) with _ | ⟨a, _ | ⟨b, l⟩⟩
  · rw [hA] at h1; rw [List.nil_perm.1 h1, hA]
  · rw [hA] at h1; rw [← List.singleton_perm.1 h1, hA]
  · rw [hA] at h2; simp at h2

/-- C56: the order of named arguments with different names is irrelevant (for arguments without side effects). -/
theorem C56_named_order {E : Env} (hE : E.Lawful) (format : Str) (es : List ArgVal) (ns ns' : List (Str × ArgVal))
    (h : ns.Perm ns') (hn : (ns.map Prod.fst).Nodup) (scope : Str → ArgVal) :
    SameEffect
      (formatArgs E format (es.map .positional ++ ns.map fun p => .named p.1 p.2) scope)
      (formatArgs E format (es.map .positional ++ ns'.map fun p => .named p.1 p.2) scope) := by
  by_cases ht : ∃ t, print t = format ∧ Documented E t ∧ Supported E t
  · obtain ⟨t, rfl, hd, hs⟩ := ht
    have hmem : ∀ n, n ∈ ns.map Prod.fst ↔ n ∈ ns'.map Prod.fst := fun n => (h.map Prod.fst).mem_iff
    refine sameEffect_of hE hd hs hd hs _ _ _ _ ?_ ?_
    · unfold RefsOk AllUsed
      have key : ∀ before ref, RefExists (es.map .positional ++ ns.map fun p => MacroArg.named p.1 p.2) before ref ↔
          RefExists (es.map .positional ++ ns'.map fun p => MacroArg.named p.1 p.2) before ref := by
        intro before ref
        rw [refExists_target, refExists_target, positionals_split, positionals_split, nameds_split, nameds_split]
        cases target (bareCount before) ref with
        | inl => exact Iff.rfl
        | inr n => simp only [hmem]
      rw [positionals_split, positionals_split, nameds_split, nameds_split]
      simp only [key, hmem]
      exact ⟨fun h => ⟨⟨es, ns', rfl⟩, h.2⟩, fun h => ⟨⟨es, ns, rfl⟩, h.2⟩⟩
    · intro W _ st w
      refine treeRun_values _ _ _ _ st t [] (fun before ref spec after e => ?_) w
      rw [valueFor_target, valueFor_target, positionals_split, positionals_split]
      unfold lastNamed
      rw [nameds_split, nameds_split]
      simp only [perm_nodup_last h hn]
  · have no : ∀ args x, formatArgs E format args scope ≠ .ok x := by
      intro args x hx
      obtain ⟨t, h1, h2, h3, -⟩ := formatArgs_ok_tree hE hx
      exact ht ⟨t, h1, h2, h3⟩
    exact ⟨⟨fun ⟨x, hx⟩ => absurd hx (no _ x), fun ⟨x, hx⟩ => absurd hx (no _ x)⟩, fun x _ hx => absurd hx (no _ x)⟩

/-- C56: a named argument `n = v` that is used is the same as the variable `n` with value `v` in scope. -/
theorem C56_capture {E : Env} (hE : E.Lawful) (format : Str) (t : List PieceSyn) (ht : Reads E format t)
    (es : List ArgVal) (ns : List (Str × ArgVal)) (n : Str) (v : ArgVal)
    (hn : n ∉ ns.map Prod.fst) (hu : UsesName t n)
    (hraw : n ∉ [str "_", str "super", str "self", str "Self", str "crate"]) (scope : Str → ArgVal) :
    SameEffect
      (formatArgs E format (es.map .positional ++ (ns ++ [(n, v)]).map fun p => .named p.1 p.2) scope)
      (formatArgs E format (es.map .positional ++ ns.map fun p => .named p.1 p.2)
        (fun m => if m = n then v else scope m)) := by
  obtain ⟨rfl, hd, hs⟩ := ht
  refine sameEffect_of hE hd hs hd hs _ _ _ _ ?_ ?_
  · unfold RefsOk AllUsed
    have key : ∀ before ref,
        RefExists (es.map .positional ++ (ns ++ [(n, v)]).map fun p => MacroArg.named p.1 p.2) before ref ↔
        RefExists (es.map .positional ++ ns.map fun p => MacroArg.named p.1 p.2) before ref := by
      intro before ref
      rw [refExists_target, refExists_target, positionals_split, positionals_split, nameds_split, nameds_split]
      cases target (bareCount before) ref with
      | inl => exact Iff.rfl
      | inr m =>
        by_cases hm : m = n
        · subst hm
          exact ⟨fun _ => .inr hraw, fun _ => .inr hraw⟩
        · simp [hm]
    rw [positionals_split, positionals_split, nameds_split, nameds_split]
    simp only [key]
    refine ⟨fun h => ⟨⟨es, ns, rfl⟩, h.2.1, h.2.2.1, fun m hm => h.2.2.2 m (by simp at hm ⊢; exact .inl hm)⟩,
      fun h => ⟨⟨es, _, rfl⟩, h.2.1, h.2.2.1, fun m hm => ?_⟩⟩
    simp only [List.map_append, List.map_cons, List.map_nil, List.mem_append, List.mem_singleton] at hm
    rcases hm with hm | rfl
    · exact h.2.2.2 m hm
    · exact hu
  · intro W _ st w
    refine treeRun_values _ _ _ _ st t [] (fun before ref spec after e => ?_) w
    rw [valueFor_target, valueFor_target, positionals_split, positionals_split]
    unfold lastNamed
    rw [nameds_split, nameds_split]
    cases target (bareCount ([] ++ before)) ref with
    | inl => rfl
    | inr m =>
      by_cases hm : m = n
      · subst hm
        have : ns.filter (fun p => decide (p.1 = m)) = [] := by
          rw [List.filter_eq_nil_iff]
          intro q hq
          simp only [decide_eq_true_eq]
          rintro rfl
          exact hn (List.mem_map_of_mem hq)
        simp [this, List.filter_append]
      · have : ¬ n = m := fun e => hm e.symm
        simp [hm, this, List.filter_append]

/-- `{:>3(bold,fg=red)}{}` and `{: >03(fg=blue,fg=red,bold)}..`: attributes in another order and with a setting
that is overridden, a fill of a space and an explicit number. -/
example : Alike 0 0
    [.arg none (some { align := some (none, .Right), width := some (.lit ['3']), attrs := some ⟨[.bold, .fg .red], false⟩ }),
      .text (str " and "), .arg none none]
    [.arg (some (.index ['0'])) (some { align := some (some ' ', .Right), width := some (.lit ['3']), attrs := some ⟨[.fg .blue, .fg .red, .bold], false⟩ }),
      .text (str " and "), .arg (some (.index ['0', '1'])) none] :=
  .arg rfl ⟨rfl, rfl, rfl, rfl, rfl, rfl, rfl, rfl, rfl, rfl⟩
    (.text _ (.arg rfl ⟨rfl, rfl, rfl, rfl, rfl, rfl, rfl, rfl, rfl, rfl⟩ (.nil _ _)))

example :
    ((formatArgs asciiEnv (str "{:>3(bold,fg=red)} and {}") [.positional (textArg (str "x")), .positional (textArg (str "y"))]
      noScope).toOption.map fun x => (writes (Display.fmt x) .default .default).1) =
    ((formatArgs asciiEnv (str "{0: >3(fg=blue,fg=red,bold)} and {01}")
      [.positional (textArg (str "x")), .positional (textArg (str "y"))]
      noScope).toOption.map fun x => (writes (Display.fmt x) .default .default).1) ∧
    (formatArgs asciiEnv (str "{:>3(bold,fg=red)} and {}") [.positional (textArg (str "x")), .positional (textArg (str "y"))]
      noScope).toOption.isSome = true := by
  decide +kernel

example : Numbered 0 [.arg none none, .text ['a'], .arg (some (.name ['n'])) none, .arg none none]
    [.arg (some (.index ['0'])) none, .text ['a'], .arg (some (.name ['n'])) none, .arg (some (.index ['1'])) none] :=
  .number ⟨by simp, by decide⟩ rfl (.keep rfl (.keep rfl (.number ⟨by simp, by decide⟩ rfl (.nil _))))

/-- Without distinct names the order matters. -/
example :
    ((formatArgs asciiEnv (str "{n}") [.named ['n'] (textArg ['x']), .named ['n'] (textArg ['y'])]
      noScope).toOption.map fun x => (writes (Display.fmt x) .default .default).1.map Prod.fst) = some [['y']] ∧
    ((formatArgs asciiEnv (str "{n}") [.named ['n'] (textArg ['y']), .named ['n'] (textArg ['x'])]
      noScope).toOption.map fun x => (writes (Display.fmt x) .default .default).1.map Prod.fst) = some [['x']] := by
  decide +kernel

/-- A captured variable. -/
example :
    ((formatArgs asciiEnv (str "{n}{}") [.positional (textArg ['p']), .named ['n'] (textArg ['x'])]
      noScope).toOption.map fun x => (writes (Display.fmt x) .default .default).1.map Prod.fst) = some [['x'], ['p']] ∧
    ((formatArgs asciiEnv (str "{n}{}") [.positional (textArg ['p'])]
      (fun m => if m = ['n'] then textArg ['x'] else noScope m)).toOption.map
        fun x => (writes (Display.fmt x) .default .default).1.map Prod.fst) = some [['x'], ['p']] := by
  decide +kernel

/-! ## C57 -/

theorem treeOutput_values (args args' : List (MacroArg ArgVal)) (scope scope' : Str → ArgVal) (st : Style)
    (t : List PieceSyn) : ∀ (b b' : List PieceSyn),
    (∀ before ref spec after, t = before ++ .arg ref spec :: after →
      valueFor args scope (b ++ before) ref = valueFor args' scope' (b' ++ before) ref) →
    treeOutput args scope st b t = treeOutput args' scope' st b' t := by
  induction t with
  | nil => intros; rfl
  | cons p t ih =>
    intro b b' h
    rw [treeOutput_cons, treeOutput_cons]
    have hp : pieceOutput args scope b st p = pieceOutput args' scope' b' st p := by
      rcases p with s | _ | _ | ⟨r, spec⟩ <;> try rfl
      have := h [] r spec t rfl
      rw [List.append_nil, List.append_nil] at this
      simp only [pieceOutput, this]
    rw [hp, ih (b ++ [p]) (b' ++ [p]) (fun before ref spec after e => ?_)]
    have := h (p :: before) ref spec after (by rw [e]; rfl)
    simpa using this

theorem print_append (t t' : List PieceSyn) : print (t ++ t') = print t ++ print t' := by
  simp [print]

theorem print_ne_nil {E : Env} {t : List PieceSyn} (hd : ∀ p ∈ t, p.Documented E) (h : t ≠ []) : print t ≠ [] := by
  rcases t with _ | ⟨p, t⟩
  · exact absurd rfl h
  · rcases p with s | _ | _ | ⟨r, spec⟩
    · have := (hd (.text s) (List.mem_cons_self ..)).1
      show s ++ print t ≠ []
      simp [this]
    · exact List.cons_ne_nil _ _
    · exact List.cons_ne_nil _ _
    · exact List.cons_ne_nil _ _

theorem startsWithAlign_append (a b : Str) (h : a ≠ []) : startsWithAlign (a ++ b) = startsWithAlign a := by
  rcases a with _ | ⟨c, a⟩
  · exact absurd rfl h
  · rfl

theorem noFalseFill_append {E : Env} {u r r' : List PieceSyn} (hd : ∀ p ∈ u, p.Documented E)
    (h : NoFalseFill (u ++ r)) (h' : NoFalseFill r')
    (hl : ∀ p, u.getLast? = some p → p.emptySpec = true → startsWithAlign (print r) = false →
      startsWithAlign (print r') = false) : NoFalseFill (u ++ r') := by
  induction u with
  | nil => exact h'
  | cons p u ih =>
    refine ⟨fun he => ?_, ih (fun q hq => hd q (List.mem_cons_of_mem _ hq)) h.2 (fun q hq => hl q ?_)⟩
    · have h1 : startsWithAlign (print (u ++ r)) = false := h.1 he
      show startsWithAlign (print (u ++ r')) = false
      rcases u with _ | ⟨q, u⟩
      · exact hl p rfl he h1
      · have hne := print_ne_nil (fun q hq => hd q (List.mem_cons_of_mem _ hq)) (List.cons_ne_nil q u)
        rw [print_append, startsWithAlign_append _ _ hne] at h1 ⊢
        exact h1
    · rw [List.getLast?_cons, hq]; rfl

theorem merged_append {t t' : List PieceSyn} (h : Merged t) (h' : Merged t')
    (hb : ∀ s s' u v, t = u ++ [.text s] → t' = .text s' :: v → False) : Merged (t ++ t') := by
  induction t with
  | nil => exact h'
  | cons p t ih =>
    rw [List.cons_append, merged_cons]
    refine ⟨?_, ih ((merged_cons p t).1 h).2 (fun s s' u v e e' => hb s s' (p :: u) v (by rw [e]; rfl) e')⟩
    intro q r e hp
    rcases t with _ | ⟨p', t⟩
    · obtain ⟨s, rfl⟩ : ∃ s, p = .text s := by
        cases p <;> first | exact ⟨_, rfl⟩ | cases hp
      cases hq : q.isText with
      | false => rfl
      | true =>
        obtain ⟨s', rfl⟩ : ∃ s, q = .text s := by
          cases q <;> first | exact ⟨_, rfl⟩ | cases hq
        exact (hb s s' [] r rfl e).elim
    · exact ((merged_cons p _).1 h).1 q t (by rw [(List.cons.inj e).1]) hp

theorem merged_text {u v : List PieceSyn} {s s' x : Str} (h : Merged (u ++ [.text s])) (h' : Merged (.text s' :: v)) :
    Merged (u ++ .text x :: v) := by
  induction u with
  | nil =>
    rw [List.nil_append, merged_cons] at *
    exact ⟨h'.1, h'.2⟩
  | cons p u ih =>
    rw [List.cons_append, merged_cons] at *
    refine ⟨?_, ih h.2⟩
    intro q r e hp
    rcases u with _ | ⟨p', u⟩
    · have := h.1 (.text s) [] rfl hp
      cases this
    · exact h.1 q _ (by rw [← (List.cons.inj e).1]; rfl) hp

/-- The placeholders of a tree, each with the number of placeholders without a reference before it. -/
def refs (k : Nat) : List PieceSyn → List (Nat × Option ArgRef × Option SpecSyn)
  | [] => []
  | .arg ref spec :: t => (k, ref, spec) :: refs (if ref = none then k + 1 else k) t
  | _ :: t => refs k t

theorem refs_append (k : Nat) (t t' : List PieceSyn) :
    refs k (t ++ t') = refs k t ++ refs (k + bareCount t) t' := by
  induction t generalizing k with
  | nil => rfl
  | cons p t ih =>
    rcases p with s | _ | _ | ⟨r, spec⟩
    · simp [refs, ih, bareCount, PieceSyn.isBare]
    · simp [refs, ih, bareCount, PieceSyn.isBare]
    · simp [refs, ih, bareCount, PieceSyn.isBare]
    · rw [List.cons_append, refs, ih, refs, List.cons_append]
      congr 3
      rcases r with _ | _
      · simp only [bareCount, List.countP_cons, PieceSyn.isBare, if_true]; omega
      · simp [bareCount, PieceSyn.isBare]

theorem mem_refs (k : Nat) (t : List PieceSyn) (j : Nat) (ref : Option ArgRef) (spec : Option SpecSyn) :
    (j, ref, spec) ∈ refs k t ↔
      ∃ before after, t = before ++ .arg ref spec :: after ∧ j = k + bareCount before := by
  constructor
  · intro h
    induction t generalizing k with
    | nil => cases h
    | cons p t ih =>
      have go : ∀ k', (j, ref, spec) ∈ refs k' t → k' = k + bareCount [p] →
          ∃ before after, p :: t = before ++ .arg ref spec :: after ∧ j = k + bareCount before := by
        intro k' h' e
        obtain ⟨b, a, e1, e2⟩ := ih k' h'
        refine ⟨p :: b, a, by rw [e1]; rfl, ?_⟩
        rw [e2, e, bareCount, bareCount, bareCount, List.countP_cons, List.countP_cons, List.countP_nil]
        omega
      rcases p with s | _ | _ | ⟨r, sp⟩
      · exact go k h rfl
      · exact go k h rfl
      · exact go k h rfl
      · rcases List.mem_cons.1 h with e | h
        · obtain ⟨rfl, rfl, rfl⟩ : j = k ∧ ref = r ∧ spec = sp := by simpa using e
          exact ⟨[], t, rfl, rfl⟩
        · refine go _ h ?_
          rcases r with _ | _ <;> simp [bareCount, PieceSyn.isBare]
  · rintro ⟨b, a, rfl, rfl⟩
    rw [refs_append]
    simp [refs]

theorem refsOk_refs {X : Type} (args : List (MacroArg X)) (t : List PieceSyn) : RefsOk args t ↔
    ∀ k ref spec, (k, ref, spec) ∈ refs 0 t → (match target k ref with
      | .inl i => i < (positionals args).length
      | .inr n => n ∈ (nameds args).map Prod.fst ∨
          n ∉ [str "_", str "super", str "self", str "Self", str "crate"]) ∧ (specOf spec).NoParams := by
  constructor
  · intro h k ref spec hm
    obtain ⟨b, a, e, rfl⟩ := (mem_refs _ _ _ _ _).1 hm
    have := h b ref spec a e
    rw [refExists_target] at this
    simpa using this
  · intro h b ref spec a e
    rw [refExists_target]
    exact h _ ref spec ((mem_refs _ _ _ _ _).2 ⟨b, a, e, (Nat.zero_add _).symm⟩)

theorem usesPositional_refs (t : List PieceSyn) (i : Nat) : UsesPositional t i ↔
    ∃ k ref spec, (k, ref, spec) ∈ refs 0 t ∧ target k ref = .inl i := by
  rw [usesPositional_target]
  constructor
  · rintro ⟨b, r, s, a, e, h⟩
    exact ⟨_, r, s, (mem_refs _ _ _ _ _).2 ⟨b, a, e, (Nat.zero_add _).symm⟩, h⟩
  · rintro ⟨k, r, s, hm, h⟩
    obtain ⟨b, a, e, rfl⟩ := (mem_refs _ _ _ _ _).1 hm
    rw [Nat.zero_add] at h
    exact ⟨b, r, s, a, e, h⟩

theorem usesName_refs (t : List PieceSyn) (n : Str) : UsesName t n ↔
    ∃ k ref spec, (k, ref, spec) ∈ refs 0 t ∧ target k ref = .inr n := by
  rw [usesName_target]
  constructor
  · rintro ⟨b, r, s, a, e, h⟩
    exact ⟨_, r, s, (mem_refs _ _ _ _ _).2 ⟨b, a, e, (Nat.zero_add _).symm⟩, h⟩
  · rintro ⟨k, r, s, hm, h⟩
    obtain ⟨b, a, e, rfl⟩ := (mem_refs _ _ _ _ _).1 hm
    rw [Nat.zero_add] at h
    exact ⟨b, r, s, a, e, h⟩

/-- The placeholder counts only shift. -/
theorem mem_refs_shift (k m : Nat) (t : List PieceSyn) (j : Nat) (ref : Option ArgRef) (spec : Option SpecSyn) :
    (k + j, ref, spec) ∈ refs (k + m) t ↔ (j, ref, spec) ∈ refs m t := by
  rw [mem_refs, mem_refs]
  constructor <;> rintro ⟨b, a, e, h⟩ <;> exact ⟨b, a, e, by omega⟩

theorem refs_ge (k : Nat) (t : List PieceSyn) (j : Nat) (ref : Option ArgRef) (spec : Option SpecSyn)
    (h : (j, ref, spec) ∈ refs k t) : ∃ i, j = k + i := by
  obtain ⟨b, -, -, h⟩ := (mem_refs _ _ _ _ _).1 h
  exact ⟨_, h⟩

/-- Two readings put one after the other. -/
theorem join_reads {E : Env} {t t' : List PieceSyn} (hd : Documented E t) (hs : Supported E t)
    (hd' : Documented E t') (hs' : Supported E t')
    (hl : ∀ p, t.getLast? = some p → p.emptySpec = true → startsWithAlign (print t') = false) :
    ∃ v, Reads E (print t ++ print t') v ∧ refs 0 v = refs 0 (t ++ t') ∧
      ∀ args scope st, (treeOutput args scope st [] v).2 = (treeOutput args scope st [] (t ++ t')).2 ∧
        flatten (treeOutput args scope st [] v).1 = flatten (treeOutput args scope st [] (t ++ t')).1 := by
  by_cases hb : ∃ s s' u v, t = u ++ [.text s] ∧ t' = .text s' :: v
  · obtain ⟨s, s', u, v, rfl, rfl⟩ := hb
    refine ⟨u ++ .text (s ++ s') :: v, ⟨?_, ⟨?_, merged_text hd.2 hd'.2⟩, ?_, ?_⟩, ?_, ?_⟩
    · simp [print, PieceSyn.print]
    · intro p hp
      have h1 := hd.1 (.text s) (by simp)
      have h2 := hd'.1 (.text s') (by simp)
      rcases List.mem_append.1 hp with hp | hp
      · exact hd.1 p (by simp [hp])
      · rcases List.mem_cons.1 hp with rfl | hp
        · refine ⟨by simp [h1.1], ?_, ?_⟩
          · simp [h1.2.1, h2.2.1]
          · simp [h1.2.2, h2.2.2]
        · exact hd'.1 p (by simp [hp])
    · intro p hp
      rcases List.mem_append.1 hp with hp | hp
      · exact hs.1 p (by simp [hp])
      · rcases List.mem_cons.1 hp with rfl | hp
        · trivial
        · exact hs'.1 p (by simp [hp])
    · refine noFalseFill_append (fun p hp => hd.1 p (by simp [hp])) hs.2 ⟨(nomatch ·), hs'.2.2⟩ (fun p _ _ h => ?_)
      have h1 := (hd.1 (.text s) (by simp)).1
      show startsWithAlign ((s ++ s') ++ print v) = false
      rw [List.append_assoc, startsWithAlign_append _ _ h1]
      have h : startsWithAlign (s ++ []) = false := h
      rwa [List.append_nil] at h
    · simp [refs_append, refs, bareCount]
    · intro args scope st
      have hbc : ∀ x b, treeOutput args scope st (u ++ .text x :: b) v = treeOutput args scope st (u ++ b) v := by
        intro x b
        refine treeOutput_values _ _ _ _ st v _ _ (fun before ref spec after _ => ?_)
        rw [valueFor_target, valueFor_target]
        simp [bareCount, PieceSyn.isBare]
      have e1 : treeOutput args scope st [] (u ++ .text (s ++ s') :: v) =
          andThen (treeOutput args scope st [] u) (andThen ([(s ++ s', st)], .ok ()) (treeOutput args scope st u v)) := by
        rw [treeOutput_append, treeOutput_cons, List.nil_append, hbc, List.append_nil]
        rfl
      have e2 : treeOutput args scope st [] (u ++ [.text s] ++ .text s' :: v) =
          andThen (treeOutput args scope st [] u) (andThen ([(s, st)], .ok ()) (andThen ([(s', st)], .ok ())
            (treeOutput args scope st u v))) := by
        rw [List.append_assoc, treeOutput_append, List.singleton_append, treeOutput_cons, treeOutput_cons,
          List.nil_append, List.append_assoc, List.singleton_append, hbc, hbc, List.append_nil]
        rfl
      rw [e1, e2]
      rcases treeOutput args scope st [] u with ⟨o, _ | _ | _ | _⟩ <;>
        simp [andThen, flatten, paint]
  · have hb' : ∀ s s' u v, t = u ++ [.text s] → t' = .text s' :: v → False :=
      fun s s' u v e e' => hb ⟨s, s', u, v, e, e'⟩
    refine ⟨t ++ t', ⟨print_append _ _, ⟨?_, merged_append hd.2 hd'.2 hb'⟩, ?_, ?_⟩, rfl, fun _ _ _ => ⟨rfl, rfl⟩⟩
    · intro p hp
      rcases List.mem_append.1 hp with hp | hp
      · exact hd.1 p hp
      · exact hd'.1 p hp
    · intro p hp
      rcases List.mem_append.1 hp with hp | hp
      · exact hs.1 p hp
      · exact hs'.1 p hp
    · exact noFalseFill_append (r := []) hd.1 (by rw [List.append_nil]; exact hs.2) hs'.2 (fun p h1 h2 _ => hl p h1 h2)

theorem andThen_flatten (p q : List Chunk × Res FmtError Unit) :
    (andThen p q).2 = (if p.2 = .ok () then q.2 else p.2) ∧
    flatten (andThen p q).1 = flatten p.1 ++ (if p.2 = .ok () then flatten q.1 else []) := by
  rcases p with ⟨o, _ | _ | _ | _⟩ <;> simp [andThen, flatten]

/-- C57: formatting with two format strings one after the other writes the same as formatting once with the
strings and the arguments put together. The placeholders of the first string use up its positional arguments
(one `{}` for each), those of the second have no numbers, and neither string uses a name that is an argument of
the other. And (see `C57_fill`) the strings must not be such that the first ends in `{:}` and the second starts with
`<`, `^` or `>`. -/
theorem C57_concat {E : Env} (hE : E.Lawful) (f f' : Str) (t t' : List PieceSyn) (ht : Reads E f t)
    (ht' : Reads E f' t') (es es' : List ArgVal) (ns ns' : List (Str × ArgVal)) (scope : Str → ArgVal)
    (x x' : Arguments)
    (hx : formatArgs E f (es.map .positional ++ ns.map fun p => .named p.1 p.2) scope = .ok x)
    (hx' : formatArgs E f' (es'.map .positional ++ ns'.map fun p => .named p.1 p.2) scope = .ok x')
    (hbare : bareCount t = es.length) (hidx : ∀ ds spec, PieceSyn.arg (some (.index ds)) spec ∉ t')
    (hn : ∀ n ∈ ns'.map Prod.fst, ¬ UsesName t n) (hn' : ∀ n ∈ ns.map Prod.fst, ¬ UsesName t' n)
    (hl : ∀ p, t.getLast? = some p → p.emptySpec = true → startsWithAlign f' = false) :
    ∃ y, formatArgs E (f ++ f')
        ((es ++ es').map .positional ++ (ns ++ ns').map fun p => .named p.1 p.2) scope = .ok y ∧
      ∀ st a,
        (writes (Display.fmt y) st a).2 = (if (writes (Display.fmt x) st a).2 = .ok ()
          then (writes (Display.fmt x') st a).2 else (writes (Display.fmt x) st a).2) ∧
        flatten (writes (Display.fmt y) st a).1 = flatten (writes (Display.fmt x) st a).1 ++
          (if (writes (Display.fmt x) st a).2 = .ok () then flatten (writes (Display.fmt x') st a).1 else []) := by
  have out1 := (C46_end_to_end hE f _ scope x hx).2 t ht
  have out2 := (C46_end_to_end hE f' _ scope x' hx').2 t' ht'
  obtain ⟨rfl, hd, hs⟩ := ht
  obtain ⟨rfl, hd', hs'⟩ := ht'
  obtain ⟨v, hv, hrefs, hout⟩ := join_reads hd hs hd' hs' hl
  have acc : RefsOk (es.map .positional ++ ns.map fun p => MacroArg.named p.1 p.2) t ∧
      AllUsed (es.map .positional ++ ns.map fun p => MacroArg.named p.1 p.2) t := by
    rcases formatArgs_tree hE _ scope t hd hs with ⟨⟨-, h⟩, -⟩ | ⟨-, e, he⟩
    · exact h
    · rw [he] at hx; cases hx
  have acc' : RefsOk (es'.map .positional ++ ns'.map fun p => MacroArg.named p.1 p.2) t' ∧
      AllUsed (es'.map .positional ++ ns'.map fun p => MacroArg.named p.1 p.2) t' := by
    rcases formatArgs_tree hE _ scope t' hd' hs' with ⟨⟨-, h⟩, -⟩ | ⟨-, e, he⟩
    · exact h
    · rw [he] at hx'; cases hx'
  rw [refsOk_refs] at acc acc'
  unfold AllUsed at acc acc'
  simp only [usesPositional_refs, usesName_refs, positionals_split, nameds_split] at acc acc' hn hn'
  -- placeholders of the second string
  have shift : ∀ k ref spec, (k, ref, spec) ∈ refs (0 + bareCount t) t' →
      ∃ j, k = es.length + j ∧ (j, ref, spec) ∈ refs 0 t' := by
    intro k ref spec h
    rw [Nat.zero_add, hbare] at h
    obtain ⟨j, rfl⟩ := refs_ge _ _ _ _ _ h
    exact ⟨j, rfl, (mem_refs_shift es.length 0 t' j ref spec).1 h⟩
  have shift' : ∀ j ref spec, (j, ref, spec) ∈ refs 0 t' →
      (es.length + j, ref, spec) ∈ refs (0 + bareCount t) t' := by
    intro j ref spec h
    rw [Nat.zero_add, hbare]
    exact (mem_refs_shift es.length 0 t' j ref spec).2 h
  have notIdx : ∀ j ref spec, (j, ref, spec) ∈ refs 0 t' → ref = none ∨ ∃ n, ref = some (.name n) := by
    intro j ref spec h
    obtain ⟨b, a, e, -⟩ := (mem_refs _ _ _ _ _).1 h
    rcases ref with _ | ds | n
    · exact .inl rfl
    · exact absurd (by rw [e]; simp) (hidx ds spec)
    · exact .inr ⟨n, rfl⟩
  have hacc : PositionalFirst ((es ++ es').map .positional ++ (ns ++ ns').map fun p => MacroArg.named p.1 p.2) ∧
      RefsOk ((es ++ es').map .positional ++ (ns ++ ns').map fun p => MacroArg.named p.1 p.2) v ∧
      AllUsed ((es ++ es').map .positional ++ (ns ++ ns').map fun p => MacroArg.named p.1 p.2) v := by
    refine ⟨⟨_, _, rfl⟩, ?_, ?_⟩
    · rw [refsOk_refs, hrefs, refs_append, positionals_split, nameds_split]
      intro k ref spec h
      rcases List.mem_append.1 h with h | h
      · obtain ⟨h1, h2⟩ := acc.1 k ref spec h
        refine ⟨?_, h2⟩
        cases htg : target k ref with
        | inl i => rw [htg] at h1; simp only [List.length_append] at h1 ⊢; omega
        | inr n =>
          rw [htg] at h1
          exact h1.imp (fun h => by rw [List.map_append]; exact List.mem_append_left _ h) id
      · obtain ⟨j, rfl, h'⟩ := shift k ref spec h
        obtain ⟨h1, h2⟩ := acc'.1 j ref spec h'
        refine ⟨?_, h2⟩
        rcases notIdx j ref spec h' with rfl | ⟨n, rfl⟩
        · simp only [target, List.length_append] at h1 ⊢; omega
        · exact h1.imp (fun h => by rw [List.map_append]; exact List.mem_append_right _ h) id
    · unfold AllUsed
      simp only [usesPositional_refs, usesName_refs, positionals_split, nameds_split, hrefs, refs_append]
      refine ⟨fun i hi => ?_, fun n hn => ?_⟩
      · by_cases hlt : i < es.length
        · obtain ⟨k, r, s, h1, h2⟩ := acc.2.1 i hlt
          exact ⟨k, r, s, List.mem_append_left _ h1, h2⟩
        · obtain ⟨k, r, s, h1, h2⟩ := acc'.2.1 (i - es.length) (by simp at hi; omega)
          refine ⟨_, r, s, List.mem_append_right _ (shift' k r s h1), ?_⟩
          rcases notIdx k r s h1 with rfl | ⟨n, rfl⟩
          · have h2 := Sum.inl.inj h2
            show Sum.inl _ = Sum.inl _
            congr 1
            omega
          · cases h2
      · rw [List.map_append] at hn
        rcases List.mem_append.1 hn with hn | hn
        · obtain ⟨k, r, s, h1, h2⟩ := acc.2.2 n hn
          exact ⟨k, r, s, List.mem_append_left _ h1, h2⟩
        · obtain ⟨k, r, s, h1, h2⟩ := acc'.2.2 n hn
          refine ⟨_, r, s, List.mem_append_right _ (shift' k r s h1), ?_⟩
          rcases notIdx k r s h1 with rfl | ⟨n, rfl⟩
          · cases h2
          · exact h2
  obtain ⟨hp, hd3, hs3⟩ := hv
  rcases formatArgs_tree hE _ scope v hd3 hs3 with ⟨-, e⟩ | ⟨na, -⟩
  rotate_left
  · exact absurd hacc na
  rw [hp] at e
  refine ⟨_, e, fun st a => ?_⟩
  rw [(C46_end_to_end hE _ _ scope _ e).2 v ⟨hp, hd3, hs3⟩ st a, out1, out2]
  obtain ⟨o1, o2⟩ := hout ((es ++ es').map .positional ++ (ns ++ ns').map fun p => MacroArg.named p.1 p.2) scope st
  rw [o1, o2, treeOutput_append, List.nil_append]
  have ea : treeOutput ((es ++ es').map .positional ++ (ns ++ ns').map fun p => MacroArg.named p.1 p.2) scope st [] t =
      treeOutput (es.map .positional ++ ns.map fun p => MacroArg.named p.1 p.2) scope st [] t := by
    refine treeOutput_values _ _ _ _ st t _ _ (fun before ref spec after he => ?_)
    have hm : (bareCount before, ref, spec) ∈ refs 0 t :=
      (mem_refs _ _ _ _ _).2 ⟨before, after, he, (Nat.zero_add _).symm⟩
    have h1 := (acc.1 _ _ _ hm).1
    rw [valueFor_target, valueFor_target, positionals_split, positionals_split]
    unfold lastNamed
    rw [nameds_split, nameds_split, List.nil_append]
    cases htg : target (bareCount before) ref with
    | inl i =>
      rw [htg] at h1
      exact List.getElem?_append_left h1
    | inr n =>
      have : ns'.filter (fun p => decide (p.1 = n)) = [] := by
        rw [List.filter_eq_nil_iff]
        intro q hq
        simp only [decide_eq_true_eq]
        rintro rfl
        exact hn q.1 (List.mem_map_of_mem hq) ⟨_, _, _, hm, htg⟩
      simp [this]
  have eb : treeOutput ((es ++ es').map .positional ++ (ns ++ ns').map fun p => MacroArg.named p.1 p.2) scope st t t' =
      treeOutput (es'.map .positional ++ ns'.map fun p => MacroArg.named p.1 p.2) scope st [] t' := by
    refine treeOutput_values _ _ _ _ st t' _ _ (fun before ref spec after he => ?_)
    have hm : (bareCount before, ref, spec) ∈ refs 0 t' :=
      (mem_refs _ _ _ _ _).2 ⟨before, after, he, (Nat.zero_add _).symm⟩
    have hcnt : bareCount (t ++ before) = es.length + bareCount before := by
      rw [← hbare]; simp [bareCount]
    rw [valueFor_target, valueFor_target, positionals_split, positionals_split]
    unfold lastNamed
    rw [nameds_split, nameds_split, List.nil_append, hcnt]
    rcases notIdx _ _ _ hm with rfl | ⟨n, rfl⟩
    · show (es ++ es')[es.length + bareCount before]? = es'[bareCount before]?
      rw [List.getElem?_append_right (Nat.le_add_right ..), Nat.add_sub_cancel_left]
    · have : ns.filter (fun p => decide (p.1 = n)) = [] := by
        rw [List.filter_eq_nil_iff]
        intro q hq
        simp only [decide_eq_true_eq]
        rintro rfl
        exact hn' q.1 (List.mem_map_of_mem hq) ⟨_, _, _, hm, rfl⟩
      simp [this, target]
  rw [ea, eb]
  exact andThen_flatten _ _

/-- C57: why the last condition is needed: `{:}` formats and so does `<`, but `{:}<` does not compile, because the
parser takes `}` for a fill character. -/
theorem C57_fill :
    (formatArgs asciiEnv (str "{:}") [.positional (textArg ['x'])] noScope).toOption.isSome = true ∧
    (formatArgs asciiEnv (str "<") [] noScope).toOption.isSome = true ∧
    (formatArgs asciiEnv (str "{:}" ++ str "<") [.positional (textArg ['x'])] noScope).toOption.isSome = false ∧
    formatArgsMacro asciiEnv (str "{:}" ++ str "<") [.positional (textArg ['x'])] = .error .fillTodo :=
  ⟨by decide +kernel, by decide +kernel, by decide +kernel, by
    have h : (match formatArgsMacro asciiEnv (str "{:}" ++ str "<") [.positional (textArg ['x'])] with
      | .error .fillTodo => true
      | _ => false) = true := by decide +kernel
    split at h
    · assumption
    · cases h⟩

/-- C57 on an example: two strings with text on both sides of the seam. -/
example :
    (formatArgs asciiEnv (str "a{}b" ++ str "c{n:(bold)}{}")
      [.positional (textArg ['x']), .positional (textArg ['y']), .named ['n'] (textArg ['z'])] noScope).toOption.map
        (fun x => flatten (writes (Display.fmt x) .default .default).1) =
    ((formatArgs asciiEnv (str "a{}b") [.positional (textArg ['x'])] noScope).toOption.bind fun x =>
      (formatArgs asciiEnv (str "c{n:(bold)}{}") [.positional (textArg ['y']), .named ['n'] (textArg ['z'])]
        noScope).toOption.map fun x' =>
          flatten (writes (Display.fmt x) .default .default).1 ++ flatten (writes (Display.fmt x') .default .default).1) ∧
    (formatArgs asciiEnv (str "a{}b" ++ str "c{n:(bold)}{}")
      [.positional (textArg ['x']), .positional (textArg ['y']), .named ['n'] (textArg ['z'])] noScope).toOption.isSome =
      true := by
  decide +kernel

end Stylish.Props
