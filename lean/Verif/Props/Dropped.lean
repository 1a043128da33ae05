import Verif.Props.Spelling
import Verif.Props.Propagate
/-
Whether an argument can be passed in vain: C88.
-/

namespace Stylish.Props

open Nom Format Spec Spec.Syntax

/-- Among the arguments that follow there is one of the same name. -/
def GivenAgain {X : Type} (a : MacroArg X) (later : List (MacroArg X)) : Prop :=
  ∃ n v, a = .named n v ∧ n ∈ (nameds later).map Prod.fst

private theorem positionals_append {X : Type} (l r : List (MacroArg X)) :
    positionals (l ++ r) = positionals l ++ positionals r := List.filterMap_append

private theorem nameds_append {X : Type} (l r : List (MacroArg X)) : nameds (l ++ r) = nameds l ++ nameds r :=
  List.filterMap_append

theorem lastNamed_here {X : Type} (l r : List (MacroArg X)) (n : Str) (v : X)
    (h : n ∉ (nameds r).map Prod.fst) : lastNamed (l ++ .named n v :: r) n = some v := by
  have e : nameds (.named n v :: r) = (n, v) :: nameds r := rfl
  have e2 : (nameds r).filter (fun p => p.1 = n) = [] := by
    rw [List.filter_eq_nil_iff]
    intro p hp he
    exact h (List.mem_map.2 ⟨p, hp, by simpa using he⟩)
  unfold lastNamed
  rw [nameds_append, e, List.filter_append, List.filter_cons, e2]
  simp

private theorem lastNamed_later {X : Type} (l r : List (MacroArg X)) (n : Str) (v v' : X)
    (h : n ∈ (nameds r).map Prod.fst) (m : Str) :
    lastNamed (l ++ .named n v :: r) m = lastNamed (l ++ .named n v' :: r) m := by
  have e : ∀ v : X, nameds (.named n v :: r) = (n, v) :: nameds r := fun _ => rfl
  unfold lastNamed
  rw [nameds_append, nameds_append, e, e, List.filter_append, List.filter_append, List.filter_cons, List.filter_cons]
  by_cases hm : n = m
  · subst hm
    simp only [decide_true, if_true]
    obtain ⟨p, hp, hpn⟩ := List.mem_map.1 h
    have hne : (nameds r).filter (fun p => p.1 = n) ≠ [] := by
      intro he
      exact (List.filter_eq_nil_iff.1 he) p hp (by simpa using hpn)
    rcases hf : (nameds r).filter (fun p => p.1 = n) with _ | ⟨q, qs⟩
    · exact absurd hf hne
    · have hf' : List.filter (fun p => decide (p.fst = n)) (nameds r) = q :: qs := hf
      rw [hf', List.getLast?_append, List.getLast?_append, List.getLast?_cons_cons, List.getLast?_cons_cons]
  · simp [hm]

private theorem first_revalue {X : Type} (n : Str) (v v' : X) (r : List (MacroArg X)) :
    ∀ (l : List (MacroArg X)) (es : List X) (ns : List (Str × X)),
      l ++ .named n v :: r = es.map .positional ++ ns.map (fun p => .named p.1 p.2) →
      ∃ ns' : List (Str × X), l ++ .named n v' :: r = es.map .positional ++ ns'.map (fun p => .named p.1 p.2) := by
  intro l
  induction l with
  | nil =>
    intro es ns e
    cases es with
    | cons x es => simp at e
    | nil =>
      cases ns with
      | nil => simp at e
      | cons p ns =>
        simp only [List.nil_append, List.map_nil, List.map_cons, List.cons.injEq] at e
        exact ⟨(n, v') :: ns, by simp [e.2]⟩
  | cons a l ih =>
    intro es ns e
    cases es with
    | cons x es =>
      simp only [List.cons_append, List.map_cons, List.cons.injEq] at e
      obtain ⟨ns', e'⟩ := ih es ns e.2
      exact ⟨ns', by simp [e.1, e']⟩
    | nil =>
      cases ns with
      | nil => simp at e
      | cons p ns =>
        simp only [List.nil_append, List.cons_append, List.map_nil, List.map_cons, List.cons.injEq] at e
        obtain ⟨ns', e'⟩ := ih [] ns e.2
        exact ⟨p :: ns', by simpa [e.1] using e'⟩

/-- C88 (partial: the argument is not given a second time under the same name): in every call that compiles, some
placeholder shows the argument, and formatting is what comes before it, the argument in the way of that placeholder,
and what comes after. -/
theorem C88_shown_partial {E : Env} (hE : E.Lawful) (format : Str) (l : List (MacroArg ArgVal)) (a : MacroArg ArgVal)
    (r : List (MacroArg ArgVal)) (ha : ¬ GivenAgain a r) (scope : Str → ArgVal) (x : Arguments)
    (h : formatArgs E format (l ++ a :: r) scope = .ok x) :
    ∃ before ref spec after, Reads E format (before ++ .arg ref spec :: after) ∧ ∀ st o,
      writes (Display.fmt x) st o =
        andThen (treeOutput (l ++ a :: r) scope st [] before)
          (andThen (argOutput (argValue a) (specOf spec) st)
            (treeOutput (l ++ a :: r) scope st (before ++ [.arg ref spec]) after)) := by
  obtain ⟨t, hp, hd, hs, -, -, hu, -⟩ := formatArgs_ok_tree hE h
  have key : ∃ before ref spec after, t = before ++ .arg ref spec :: after ∧
      valueFor (l ++ a :: r) scope before ref = some (argValue a) := by
    cases a with
    | positional v =>
      have hpos : (positionals (l ++ .positional v :: r))[(positionals l).length]? = some v := by
        rw [positionals_append]
        simp [positionals]
      obtain ⟨before, ref, spec, after, e, hr⟩ := hu.1 (positionals l).length (by
        rw [List.getElem?_eq_some_iff] at hpos; exact hpos.1)
      refine ⟨before, ref, spec, after, e, ?_⟩
      rcases hr with ⟨rfl, hi⟩ | ⟨ds, rfl, hi⟩
      · show (positionals _)[bareCount before]? = _
        rw [← hi]; exact hpos
      · show (positionals _)[numeralValue ds]? = _
        rw [← hi]; exact hpos
    | named n v =>
      have hn : n ∉ (nameds r).map Prod.fst := fun hm => ha ⟨n, v, rfl, hm⟩
      obtain ⟨spec, hm⟩ := hu.2 n (by rw [nameds_append]; simp [nameds])
      obtain ⟨before, after, e⟩ := List.append_of_mem hm
      refine ⟨before, _, spec, after, e, ?_⟩
      simp [valueFor, lastNamed_here l r n v hn, argValue]
  obtain ⟨before, ref, spec, after, rfl, hv⟩ := key
  refine ⟨before, ref, spec, after, ⟨hp, hd, hs⟩, fun st o => ?_⟩
  subst hp
  obtain ⟨v, hv', -, -, -, hw⟩ := C38_placeholder_value hE before after ref spec _ scope x hd hs h
  rw [hv] at hv'
  cases hv'
  exact hw st o

private theorem andThen_ok {x y : List Chunk × Res FmtError Unit} (h : (andThen x y).2 = .ok ()) :
    x.2 = .ok () ∧ y.2 = .ok () ∧ (andThen x y).1 = x.1 ++ y.1 := by
  rcases x with ⟨a, u | u | _ | _⟩
  · exact ⟨rfl, h, rfl⟩
  all_goals cases h

private theorem argOutput_text (txt : Str) (s : SpecSyn) (st : Style) :
    text (flatten (argOutput (textArg txt) s st).1) = txt := by
  unfold argOutput
  cases s.ty <;> simp [textArg, writes, stdWrites, flatten, text, paint, Function.comp_def]

/-- The full claim, on texts: what is passed as an argument is in the text. -/
def C88_claim (E : Env) : Prop :=
  ∀ (format : Str) (l : List (MacroArg ArgVal)) (a : MacroArg ArgVal) (r : List (MacroArg ArgVal))
    (scope : Str → ArgVal) (x : Arguments), formatArgs E format (l ++ a :: r) scope = .ok x →
    ∀ txt, argValue a = textArg txt → ∀ st o, (writes (Display.fmt x) st o).2 = .ok () →
      txt <:+: text (flatten (writes (Display.fmt x) st o).1)

/-- C88, the part that holds: a text that is passed, and not passed again under the same name, is in the output. -/
theorem C88_text_partial {E : Env} (hE : E.Lawful) (format : Str) (l : List (MacroArg ArgVal)) (a : MacroArg ArgVal)
    (r : List (MacroArg ArgVal)) (ha : ¬ GivenAgain a r) (scope : Str → ArgVal) (x : Arguments)
    (h : formatArgs E format (l ++ a :: r) scope = .ok x) (txt : Str) (hv : argValue a = textArg txt) (st : Style)
    (o : FormatterArgs) (hok : (writes (Display.fmt x) st o).2 = .ok ()) :
    txt <:+: text (flatten (writes (Display.fmt x) st o).1) := by
  obtain ⟨before, ref, spec, after, -, hw⟩ := C88_shown_partial hE format l a r ha scope x h
  rw [hw, hv] at hok
  rw [hw, hv]
  obtain ⟨-, h2, e1⟩ := andThen_ok hok
  obtain ⟨-, -, e2⟩ := andThen_ok h2
  rw [e1, e2]
  refine ⟨text (flatten (treeOutput (l ++ a :: r) scope st [] before).1),
    text (flatten (treeOutput (l ++ a :: r) scope st (before ++ [.arg ref spec]) after).1), ?_⟩
  simp only [flatten_append, text_append, argOutput_text, List.append_assoc]

/-- C88, where it fails: an argument that is given again under the same name is dropped: whatever its value, the call
compiles the same and does the same. (It is evaluated all the same: C40.) -/
theorem C88_dropped {E : Env} (hE : E.Lawful) (format : Str) (l r : List (MacroArg ArgVal)) (n : Str)
    (h : n ∈ (nameds r).map Prod.fst) (v v' : ArgVal) (scope : Str → ArgVal) :
    SameEffect (formatArgs E format (l ++ .named n v :: r) scope) (formatArgs E format (l ++ .named n v' :: r) scope) := by
  by_cases ht : ∃ t, Reads E format t
  · obtain ⟨t, rfl, hd, hs⟩ := ht
    refine sameEffect_of hE hd hs hd hs _ _ scope scope ?_ ?_
    · have hpos : positionals (l ++ .named n v :: r) = positionals (l ++ .named n v' :: r) := by
        rw [positionals_append, positionals_append]; rfl
      have hnam : (nameds (l ++ .named n v :: r)).map Prod.fst = (nameds (l ++ .named n v' :: r)).map Prod.fst := by
        rw [nameds_append, nameds_append]; simp [nameds]
      have href : ∀ b ref, RefExists (l ++ .named n v :: r) b ref = RefExists (l ++ .named n v' :: r) b ref := by
        intro b ref
        rw [refExists_target, refExists_target, hpos, hnam]
      have hfirst : ∀ v v', PositionalFirst (l ++ .named n v :: r) → PositionalFirst (l ++ .named n v' :: r) := by
        rintro v v' ⟨es, ns, e⟩
        obtain ⟨ns', e'⟩ := first_revalue n v v' r l es ns e
        exact ⟨es, ns', e'⟩
      unfold RefsOk AllUsed
      simp only [href, hpos, hnam]
      exact ⟨fun hh => ⟨hfirst _ _ hh.1, hh.2⟩, fun hh => ⟨hfirst _ _ hh.1, hh.2⟩⟩
    · intro W _ st w
      refine treeRun_values _ _ _ _ st t [] (fun before ref spec after e => ?_) w
      rw [valueFor_target, valueFor_target, positionals_append, positionals_append]
      cases target (bareCount ([] ++ before)) ref with
      | inl i => rfl
      | inr m => simp only [lastNamed_later l r n v v' h m]
  · have no : ∀ (args : List (MacroArg ArgVal)) (x : Arguments), formatArgs E format args scope ≠ .ok x := by
      intro args x hx
      obtain ⟨t, hp, hd, hs, -⟩ := formatArgs_ok_tree hE hx
      exact ht ⟨t, hp, hd, hs⟩
    exact ⟨⟨fun ⟨x, hx⟩ => absurd hx (no _ x), fun ⟨x, hx⟩ => absurd hx (no _ x)⟩, fun x _ hx => absurd hx (no _ x)⟩

/-- The same name twice: `format!("{a}", a = "1", a = "2")`. -/
def twice : List (MacroArg ArgVal) := [.named ['a'] (textArg ['1']), .named ['a'] (textArg ['2'])]

/-- It compiles, and shows the second value only. -/
example :
    (match formatArgs asciiEnv ['{', 'a', '}'] twice noScope with
      | .ok x => (writes (Display.fmt x) .default .default).1.map Prod.fst == [['2']]
      | _ => false) = true := by
  decide +kernel

/-- C88 does not hold as it stands. -/
theorem C88_counterexample : ¬ C88_claim asciiEnv := by
  intro hc
  have key : (match formatArgs asciiEnv ['{', 'a', '}'] twice noScope with
      | .ok x => (writes (Display.fmt x) .default .default).1 == [(['2'], .default)] &&
          (match (writes (Display.fmt x) .default .default).2 with | .ok _ => true | _ => false)
      | _ => false) = true := by decide +kernel
  rcases hx : formatArgs asciiEnv ['{', 'a', '}'] twice noScope with er | x
  · rw [hx] at key; simp at key
  · rw [hx] at key
    simp only [Bool.and_eq_true, beq_iff_eq] at key
    have := hc _ [] _ [.named ['a'] (textArg ['2'])] noScope x hx ['1'] rfl .default .default (by
      rcases hk : (writes (Display.fmt x) .default .default).2 with u | u | _ | _ <;> rw [hk] at key <;> simp at key ⊢)
    rw [key.1] at this
    obtain ⟨p, s, e⟩ := this
    have : '1' ∈ ['2'] := by
      have : '1' ∈ p ++ ['1'] ++ s := by simp
      rw [e] at this
      simpa [text, flatten, paint] using this
    exact absurd this (by decide)

/-- C88 where it holds: the hypotheses are met by a call with a positional and two named arguments. -/
example : ¬ GivenAgain (.named ['a'] (textArg ['2'])) ([.named ['b'] (textArg ['3'])] : List (MacroArg ArgVal)) ∧
    (match formatArgs asciiEnv ['{', '}', '{', 'b', '}', '{', 'a', '}']
        ([.positional (textArg ['1'])] ++ .named ['a'] (textArg ['2']) :: [.named ['b'] (textArg ['3'])]) noScope with
      | .ok x => (writes (Display.fmt x) .default .default).1.map Prod.fst == [['1'], ['3'], ['2']]
      | _ => false) = true := by
  refine ⟨?_, by decide +kernel⟩
  rintro ⟨n, v, e, h⟩
  cases e
  simp [nameds] at h

end Stylish.Props
