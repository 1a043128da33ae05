import Verif.Props.Nested
import Verif.Props.Accumulate
/-
C69: attributes do not change the text.
-/

namespace Stylish.Props

open Nom Format Spec Spec.Syntax

/-! ## C69 -/

/-- A placeholder without its attributes (`{}` and `{:}` count as the same). -/
def dropAttrs : PieceSyn → PieceSyn
  | .arg ref spec => .arg ref (some { specOf spec with attrs := none })
  | p => p

/-- The writer pays no attention to styles: it does the same with a text in any two of them. -/
def IgnoresStyle (W : Type) [Write W] : Prop :=
  ∀ (s : Str) (st st' : Style) (w : W), Write.writeStr s st w = Write.writeStr s st' w

/-- A formatting implementation does the same in all styles, as far as a writer that ignores styles can tell.
(One that prints the style it finds in the formatter's `Debug` output would not.) -/
def StyleBlind (d : Disp) : Prop :=
  ∀ (W : Type) [Write W], IgnoresStyle W → ∀ (st st' : Style) (a : FormatterArgs) (w : W),
    (d.run ⟨st, a, w⟩).1 = (d.run ⟨st', a, w⟩).1 ∧
    (d.run ⟨st, a, w⟩).2.write = (d.run ⟨st', a, w⟩).2.write

/-- The implementation never looks at the formatter itself. -/
def NeverInspects : Disp → Prop
  | .done _ => True
  | .panic => True
  | .writeStr _ k => ∀ r, NeverInspects (k r)
  | .within _ body k => NeverInspects body ∧ ∀ r, NeverInspects (k r)
  | .withinArgs _ _ body k => NeverInspects body ∧ ∀ r, NeverInspects (k r)
  | .inspect _ => False

/-- Such an implementation is blind for styles. -/
theorem neverInspects_blind (d : Disp) (h : NeverInspects d) : StyleBlind d := by
  intro W _ hW
  suffices H : ∀ (st st' : Style) (a : FormatterArgs) (w : W),
      (d.run ⟨st, a, w⟩).1 = (d.run ⟨st', a, w⟩).1 ∧
      (d.run ⟨st, a, w⟩).2.write = (d.run ⟨st', a, w⟩).2.write from H
  induction d with
  | done r => intros; exact ⟨rfl, rfl⟩
  | panic => intros; exact ⟨rfl, rfl⟩
  | inspect k => exact absurd h (by simp [NeverInspects])
  | writeStr s k ih =>
    intro st st' a w
    simp only [Disp.run, Formatter.writeStr_eq]
    rw [hW s st st' w]
    rcases Write.writeStr s st' w with ⟨_ | _ | _ | _, w'⟩
    · exact ih .ok (h .ok) st st' a w'
    · exact ih .err (h .err) st st' a w'
    · exact ⟨rfl, rfl⟩
    · exact ⟨rfl, rfl⟩
  | within r body k ihb ih =>
    intro st st' a w
    obtain ⟨h1, h2⟩ := ihb h.1 (st.with r) (st'.with r) a w
    simp only [Disp.run, Formatter.with, Formatter.endBorrow, h1, h2]
    rcases (body.run ⟨st'.with r, a, w⟩).1 with _ | _ | _ | _
    · exact ih .ok (h.2 .ok) st st' a _
    · exact ih .err (h.2 .err) st st' a _
    · exact ⟨rfl, rfl⟩
    · exact ⟨rfl, rfl⟩
  | withinArgs b r body k ihb ih =>
    intro st st' a w
    obtain ⟨h1, h2⟩ := ihb h.1 (st.with r) (st'.with r) b w
    simp only [Disp.run, Formatter.withArgs, Formatter.endBorrow, h1, h2]
    rcases (body.run ⟨st'.with r, b, w⟩).1 with _ | _ | _ | _
    · exact ih .ok (h.2 .ok) st st' a _
    · exact ih .err (h.2 .err) st st' a _
    · exact ⟨rfl, rfl⟩
    · exact ⟨rfl, rfl⟩

theorem dropAttrs_bare (t : List PieceSyn) : bareCount (t.map dropAttrs) = bareCount t := by
  unfold bareCount
  rw [List.countP_map]
  congr 1
  funext p
  cases p with
  | arg ref spec => cases ref <;> rfl
  | _ => rfl

theorem dropAttrs_split {t before after : List PieceSyn} {p : PieceSyn}
    (e : t.map dropAttrs = before ++ p :: after) :
    ∃ b q a, t = b ++ q :: a ∧ before = b.map dropAttrs ∧ p = dropAttrs q ∧ after = a.map dropAttrs := by
  obtain ⟨b, r, rfl, hb, hr⟩ := List.map_eq_append_iff.1 e
  obtain ⟨q, a, rfl, hq, ha⟩ := List.map_eq_cons_iff.1 hr
  exact ⟨b, q, a, rfl, hb.symm, hq.symm, ha.symm⟩

theorem dropAttrs_refsOk (args : List (MacroArg ArgVal)) (t : List PieceSyn) :
    RefsOk args t ↔ RefsOk args (t.map dropAttrs) := by
  constructor
  · intro h before ref spec after e
    obtain ⟨b, q, a, rfl, rfl, hq, rfl⟩ := dropAttrs_split e
    cases q with
    | arg ref0 spec0 =>
      obtain ⟨rfl, rfl⟩ := PieceSyn.arg.inj hq
      obtain ⟨h1, h2⟩ := h b ref spec0 a rfl
      refine ⟨?_, h2⟩
      rw [refExists_target] at h1 ⊢
      rw [dropAttrs_bare]
      exact h1
    | _ => cases hq
  · rintro h before ref spec after rfl
    obtain ⟨h1, h2⟩ := h (before.map dropAttrs) ref _ (after.map dropAttrs) (by rw [List.map_append]; rfl)
    refine ⟨?_, h2⟩
    rw [refExists_target] at h1 ⊢
    rw [dropAttrs_bare] at h1
    exact h1

theorem dropAttrs_allUsed (args : List (MacroArg ArgVal)) (t : List PieceSyn) :
    AllUsed args t ↔ AllUsed args (t.map dropAttrs) := by
  refine and_congr (forall_congr' fun i => imp_congr_right fun _ => ?_)
    (forall_congr' fun n => imp_congr_right fun _ => ?_)
  · constructor
    · rintro ⟨b, ref, spec, a, rfl, hr⟩
      refine ⟨b.map dropAttrs, ref, _, a.map dropAttrs, by rw [List.map_append]; rfl, ?_⟩
      rw [dropAttrs_bare]
      exact hr
    · rintro ⟨before, ref, spec, after, e, hr⟩
      obtain ⟨b, q, a, rfl, rfl, hq, rfl⟩ := dropAttrs_split e
      cases q with
      | arg ref0 spec0 =>
        obtain ⟨rfl, rfl⟩ := PieceSyn.arg.inj hq
        rw [dropAttrs_bare] at hr
        exact ⟨b, ref, spec0, a, rfl, hr⟩
      | _ => cases hq
  · constructor
    · rintro ⟨spec, hm⟩
      exact ⟨_, List.mem_map.2 ⟨_, hm, rfl⟩⟩
    · rintro ⟨spec, hm⟩
      obtain ⟨q, hq, e⟩ := List.mem_map.1 hm
      cases q with
      | arg ref0 spec0 =>
        obtain ⟨rfl, -⟩ := PieceSyn.arg.inj e
        exact ⟨spec0, hq⟩
      | _ => cases e

/-- All the values that the call's placeholders can show are blind for styles. -/
def ValuesBlind (args : List (MacroArg ArgVal)) (scope : Str → ArgVal) : Prop :=
  ∀ before ref v, valueFor args scope before ref = some v → StyleBlind v.stylish

theorem pieceRun_dropAttrs {W : Type} [Write W] (hW : IgnoresStyle W) (args : List (MacroArg ArgVal))
    (scope : Str → ArgVal) (hv : ValuesBlind args scope) (b : List PieceSyn) (st st' : Style) (p : PieceSyn) (w : W) :
    pieceRun args scope b st p w = pieceRun args scope b st' (dropAttrs p) w := by
  cases p with
  | arg ref spec =>
    simp only [dropAttrs, pieceRun]
    cases h : valueFor args scope b ref with
    | none => rfl
    | some v =>
      have hb := hv b ref v h W hW
      simp only [argRun]
      change (match (specOf spec).ty with
        | .stylish => _
        | ty => _) = match (specOf spec).ty with
        | .stylish => _
        | ty => _
      split
      · obtain ⟨h1, h2⟩ := hb ((specOf spec).style st) ({ specOf spec with attrs := none : SpecSyn }.style st') (specOf spec).options w
        exact Prod.ext h1 h2
      · have : (fun (text : Str) => (Write.writeStr text ((specOf spec).style st) : Act W FmtError Unit)) =
          fun text => Write.writeStr text ({ specOf spec with attrs := none : SpecSyn }.style st') := by
          funext s w; exact hW s _ _ w
        rw [this]
        rfl
  | _ => exact hW _ _ _ w

theorem treeRun_dropAttrs {W : Type} [Write W] (hW : IgnoresStyle W) (args : List (MacroArg ArgVal))
    (scope : Str → ArgVal) (hv : ValuesBlind args scope) (st st' : Style) (t : List PieceSyn) :
    ∀ (b : List PieceSyn) (w : W),
      treeRun args scope st b t w = treeRun args scope st' (b.map dropAttrs) (t.map dropAttrs) w := by
  induction t with
  | nil => intros; rfl
  | cons p t ih =>
    intro b w
    have hb : pieceRun args scope (b.map dropAttrs) st' (dropAttrs p) w = pieceRun args scope b st' (dropAttrs p) w := by
      have hv : ∀ ref, valueFor args scope (b.map dropAttrs) ref = valueFor args scope b ref := by
        intro ref
        rcases ref with _ | ref
        · simp [valueFor, dropAttrs_bare]
        · cases ref <;> rfl
      cases p <;> simp [dropAttrs, pieceRun, hv]
    simp only [List.map_cons, treeRun, hb, ← pieceRun_dropAttrs hW args scope hv b st st' p w]
    rcases pieceRun args scope b st p w with ⟨_ | _ | _ | _, w'⟩
    · have := ih (b ++ [p]) w'
      rw [List.map_append] at this
      exact this
    all_goals rfl

/-- C69: two format strings that differ only in their attribute lists: with the same arguments both compile or
neither does; and then they do the same on every writer that ignores styles (failing or not), whatever the styles
of the formatters they are run with. -/
theorem C69_text {E : Env} (hE : E.Lawful) (f f' : Str) (t t' : List PieceSyn) (ht : Reads E f t)
    (ht' : Reads E f' t') (h : t.map dropAttrs = t'.map dropAttrs) (args : List (MacroArg ArgVal))
    (scope : Str → ArgVal) (hv : ValuesBlind args scope) :
    ((∃ x, formatArgs E f args scope = .ok x) ↔ ∃ x', formatArgs E f' args scope = .ok x') ∧
    ∀ x x', formatArgs E f args scope = .ok x → formatArgs E f' args scope = .ok x' →
      ∀ (W : Type) [Write W], IgnoresStyle W → ∀ (st st' : Style) (a a' : FormatterArgs) (w : W),
        (Formatter.writeFmt x ⟨st, a, w⟩).1 = (Formatter.writeFmt x' ⟨st', a', w⟩).1 ∧
        (Formatter.writeFmt x ⟨st, a, w⟩).2.write = (Formatter.writeFmt x' ⟨st', a', w⟩).2.write := by
  refine ⟨?_, fun x x' hx hx' W _ hW st st' a a' w => ?_⟩
  · obtain ⟨rfl, hd, hs⟩ := ht
    obtain ⟨rfl, hd', hs'⟩ := ht'
    have e : (PositionalFirst args ∧ RefsOk args t ∧ AllUsed args t) ↔
        (PositionalFirst args ∧ RefsOk args t' ∧ AllUsed args t') := by
      rw [dropAttrs_refsOk args t, dropAttrs_refsOk args t', dropAttrs_allUsed args t, dropAttrs_allUsed args t', h]
    rcases formatArgs_tree hE args scope t hd hs with ⟨h1, e1⟩ | ⟨h1, e1, he1⟩ <;>
      rcases formatArgs_tree hE args scope t' hd' hs' with ⟨h2, e2⟩ | ⟨h2, e2, he2⟩
    · exact ⟨fun _ => ⟨_, e2⟩, fun _ => ⟨_, e1⟩⟩
    · exact absurd (e.1 h1) h2
    · exact absurd (e.2 h2) h1
    · rw [he1, he2]
      exact ⟨fun ⟨_, h⟩ => (nomatch h), fun ⟨_, h⟩ => (nomatch h)⟩
  · rw [C46_any_writer hE f args scope x hx t ht, C46_any_writer hE f' args scope x' hx' t' ht']
    have e : treeRun args scope st [] t w = treeRun args scope st' [] t' w := by
      rw [treeRun_dropAttrs hW args scope hv st .default t [] w, treeRun_dropAttrs hW args scope hv st' .default t' [] w, h]
    simp only [e, and_self]

/-- C69: so an `Arguments` value of values that are blind for styles is blind for styles again, and can itself be
nested. -/
theorem C69_nested {E : Env} (hE : E.Lawful) (f : Str) (args : List (MacroArg ArgVal)) (scope : Str → ArgVal)
    (hv : ValuesBlind args scope) (x : Arguments) (hx : formatArgs E f args scope = .ok x) :
    StyleBlind (Display.fmt x) := by
  intro W _ hW st st' a w
  obtain ⟨t, ht⟩ := (C46_end_to_end hE f args scope x hx).1
  obtain ⟨h1, h2⟩ := (C69_text hE f f t t ht ht rfl args scope hv).2 x x hx hx W hW st st' a a w
  rw [Formatter.writeFmt_eq, Formatter.writeFmt_eq] at h1 h2
  exact ⟨h1, h2⟩

/-- C69: formatting to a plain string, to a `Plain` over any stream, and to an `io::Plain` over any byte stream. -/
theorem C69_plain {E : Env} (hE : E.Lawful) (f f' : Str) (t t' : List PieceSyn) (ht : Reads E f t)
    (ht' : Reads E f' t') (h : t.map dropAttrs = t'.map dropAttrs) (args : List (MacroArg ArgVal))
    (scope : Str → ArgVal) (hv : ValuesBlind args scope) (x x' : Arguments)
    (hx : formatArgs E f args scope = .ok x) (hx' : formatArgs E f' args scope = .ok x') :
    plainFormat x = plainFormat x' ∧
    (∀ (T : Type) [FmtWrite T] (w : Plain T), Plain.writeFmt x w = Plain.writeFmt x' w) ∧
    (∀ (fuel : Nat) (T : Type) [StdIoWrite T] (w : IoPlain fuel T), IoWrite.writeFmt x w = IoWrite.writeFmt x' w) := by
  have key := (C69_text hE f f' t t' ht ht' h args scope hv).2 x x' hx hx'
  have hp : ∀ (T : Type) [FmtWrite T] (w : Plain T), Plain.writeFmt x w = Plain.writeFmt x' w := by
    intro T _ w
    obtain ⟨h1, h2⟩ := key (Plain T) (fun _ _ _ _ => rfl) .default .default .default .default w
    exact Prod.ext h1 h2
  refine ⟨?_, hp, ?_⟩
  · unfold plainFormat
    rw [hp]
  · intro fuel T _ w
    obtain ⟨h1, h2⟩ := key (ErrorTrap (IoPlain fuel T)) (fun _ _ _ _ => rfl) .default .default .default .default
      (ErrorTrap.new w)
    have e : Write.writeFmt x (ErrorTrap.new w) = Write.writeFmt x' (ErrorTrap.new w) := Prod.ext h1 h2
    simp only [IoWrite.writeFmt, e]

/-- C69 on an example: `a{:(bold)}{n:>4(fg=red)s}` and `a{}{n:>4s}`, with texts as arguments. -/
example :
    let t : List PieceSyn := [.text ['a'], .arg none (some { attrs := some ⟨[.bold], false⟩ }),
      .arg (some (.name ['n'])) (some
        { align := some (none, .Right), width := some (.lit ['4']), attrs := some ⟨[.fg .red], false⟩, ty := .stylish })]
    let t' : List PieceSyn := [.text ['a'], .arg none none,
      .arg (some (.name ['n'])) (some { align := some (none, .Right), width := some (.lit ['4']), ty := .stylish })]
    let args : List (MacroArg ArgVal) := [.positional (textArg ['x']), .named ['n'] (textArg ['y'])]
    print t = str "a{:(bold)}{n:>4(fg=red)s}" ∧ print t' = str "a{}{n:>4s}" ∧
    t.map dropAttrs = t'.map dropAttrs ∧ ValuesBlind args noScope ∧
    (formatArgs asciiEnv (print t) args noScope).toOption.map plainFormat = some (.ok ['a', 'x', 'y']) ∧
    (formatArgs asciiEnv (print t') args noScope).toOption.map plainFormat = some (.ok ['a', 'x', 'y']) := by
  refine ⟨by decide +kernel, by decide +kernel, by decide +kernel, ?_, by decide +kernel, by decide +kernel⟩
  intro before ref v hv
  refine neverInspects_blind _ ?_
  have hpos : ∀ i : Nat, [textArg ['x']][i]? = some v → NeverInspects v.stylish := by
    intro i h
    obtain ⟨hi, rfl⟩ := List.getElem?_eq_some_iff.1 h
    rw [List.getElem_singleton]
    exact fun _ => trivial
  rcases ref with _ | ds | n
  · exact hpos _ hv
  · exact hpos _ hv
  · obtain rfl := Option.some.inj hv
    unfold lastNamed
    by_cases h : n = ['n']
    · subst h; exact fun _ => trivial
    · have : (nameds [MacroArg.positional (textArg ['x']), .named ['n'] (textArg ['y'])]).filter
          (fun p => p.1 = n) = [] := by
        simp only [nameds, List.filterMap]
        rw [List.filter_cons_of_neg (by simpa using fun e : ['n'] = n => h e.symm)]
        rfl
      rw [this]
      trivial

/-- C69: the condition on the values is needed: a value that looks at the style can show it. -/
theorem C69_blind_needed :
    let v : ArgVal := ⟨fun _ _ => .done .ok, .inspect fun st _ =>
      .writeStr (if st.intensity = .Bold then ['b'] else ['n']) .done⟩
    (formatArgs asciiEnv (str "{:(bold)s}") [.positional v] noScope).toOption.map plainFormat = some (.ok ['b']) ∧
    (formatArgs asciiEnv (str "{:s}") [.positional v] noScope).toOption.map plainFormat = some (.ok ['n']) := by
  decide +kernel

end Stylish.Props
