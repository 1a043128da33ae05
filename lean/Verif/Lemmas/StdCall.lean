import Verif.Lemmas.FillTodo
import Verif.Lemmas.MacroRun
import Verif.Spec.StdCall
import Verif.Props.Grammar
/-
The format strings of std and the format string parser.
-/

namespace Stylish

open Nom Format Spec Spec.Syntax Props

variable {E : Env}

/-- The same piece without the white space. -/
def Spec.StdCall.Piece.toSyn : StdCall.Piece → PieceSyn
  | .text s => .text s
  | .openBrace => .openBrace
  | .closeBrace => .closeBrace
  | .arg ref spec _ => .arg ref spec

namespace StdCallLemmas

open StdCall (Tree StdSpec)

/-- Has neither a fill other than a space nor white space. -/
def Good : StdCall.Piece → Prop
  | .arg _ spec space => space = [] ∧ ∀ s, spec = some s → ∀ f a, s.align = some (some f, a) → f = ' '
  | _ => True

theorem print_good {p : StdCall.Piece} (h : Good p) : p.print = p.toSyn.print := by
  cases p with
  | arg ref spec space => obtain ⟨rfl, -⟩ := h; simp [StdCall.Piece.print, StdCall.Piece.toSyn, PieceSyn.print]
  | _ => rfl

theorem print_goods {t : List StdCall.Piece} (h : ∀ p ∈ t, Good p) : StdCall.print t = print (t.map (·.toSyn)) := by
  induction t with
  | nil => rfl
  | cons p t ih =>
    have := ih fun q hq => h q (by simp [hq])
    simp only [StdCall.print, print, List.flatMap_cons, List.map_cons] at this ⊢
    rw [print_good (h p (by simp)), this]

theorem isText_toSyn (p : StdCall.Piece) : p.toSyn.isText = p.isText := by cases p <;> rfl

theorem emptySpec_toSyn {p : StdCall.Piece} (h : Good p) : p.toSyn.emptySpec = p.isEmptySpec := by
  cases p with
  | arg ref spec space => obtain ⟨rfl, -⟩ := h; cases spec <;> rfl
  | _ => rfl

theorem spec_ok {s : SpecSyn} (h : StdSpec E s) (hf : ∀ f a, s.align = some (some f, a) → f = ' ') : s.Supported E := by
  obtain ⟨-, hw, hp, ha, -⟩ := h
  refine ⟨hf, ?_, ?_, ?_, by simp [ha]⟩
  · intro c hc; obtain ⟨ds, rfl, hn⟩ := hw c hc; exact hn
  · intro ds hc; obtain ⟨_, h, -⟩ := hw _ hc; cases h
  · intro p hc; obtain ⟨ds, rfl, hn⟩ := hp p hc; exact ⟨_, rfl, hn⟩

theorem ref_ok {r : ArgRef} (h : ∀ ds, r = .index ds → numeralValue ds ≤ E.usizeMax) : r.Supported E := by
  cases r with
  | index ds => exact h ds rfl
  | name n => trivial

theorem piece_ok {p : StdCall.Piece} (h : p.Ok E) (hg : Good p) : p.toSyn.Documented E ∧ p.toSyn.Supported E := by
  cases p with
  | text s => exact ⟨h, trivial⟩
  | openBrace => exact ⟨trivial, trivial⟩
  | closeBrace => exact ⟨trivial, trivial⟩
  | arg ref spec space =>
    obtain ⟨h1, h2, -⟩ := h
    exact ⟨⟨fun r hr => (h1 r hr).1, fun s hs => (h2 s hs).1⟩,
      fun r hr => ref_ok (h1 r hr).2, fun s hs => spec_ok (h2 s hs) (hg.2 s hs)⟩

/-- A tree of std is one of this crate up to the first piece that is not `Good`. -/
theorem tree_prefix (t u : List StdCall.Piece) (h : Tree E (t ++ u)) (hg : ∀ p ∈ t, Good p) :
    Documented E (t.map (·.toSyn)) ∧ Supported E (t.map (·.toSyn)) := by
  induction t with
  | nil => exact ⟨⟨by simp, trivial⟩, by simp, trivial⟩
  | cons p t ih =>
    obtain ⟨h1, h2, h3, h4⟩ := h
    obtain ⟨d, s⟩ := ih h4 fun q hq => hg q (by simp [hq])
    obtain ⟨d1, s1⟩ := piece_ok h1 (hg p (by simp))
    refine ⟨⟨?_, ?_⟩, ?_, ?_, s.2⟩
    · simp only [List.map_cons, List.mem_cons, forall_eq_or_imp]; exact ⟨d1, d.1⟩
    · cases t with
      | nil => trivial
      | cons q t =>
        refine ⟨fun ht => ?_, d.2⟩
        rw [isText_toSyn] at ht ⊢
        exact h2 ht q (by simp)
    · simp only [List.map_cons, List.mem_cons, forall_eq_or_imp]; exact ⟨s1, s.1⟩
    · intro he
      rw [emptySpec_toSyn (hg p (by simp))] at he
      have e : StdCall.print (t ++ u) = StdCall.print t ++ StdCall.print u := by simp [StdCall.print]
      have : startsWithAlign (StdCall.print (t ++ u)) = false := h3 he
      rw [e, print_goods fun q hq => hg q (by simp [hq])] at this
      exact startsWithAlign_append_left this

/-- If the parser accepts a string that starts with supported pieces, it accepts the piece that comes next. -/
theorem many0Loop_next (hE : E.Lawful) (t : List PieceSyn) (hd : Documented E t) (hs : Supported E t)
    (cs0 : Str) (fuel : Nat) (ps : List Piece)
    (hm : many0Loop (parsePiece E) fuel (print t ++ '{' :: cs0) = .ok [] ps) :
    ∃ r q, parsePiece E ('{' :: cs0) = .ok r q := by
  induction t generalizing fuel ps with
  | nil =>
    cases fuel with
    | zero => simp [many0Loop] at hm
    | succ fuel =>
      unfold many0Loop at hm
      simp only [print, List.flatMap_nil, List.nil_append] at hm
      rcases hp : parsePiece E ('{' :: cs0) with ⟨r, q⟩ | _ | _ | _
      · exact ⟨r, q, rfl⟩
      all_goals (rw [hp] at hm; cases hm)
  | cons q t ih =>
    cases fuel with
    | zero => simp [many0Loop] at hm
    | succ fuel =>
      have hq := hd.1 q (by simp)
      have hd' : Documented E t := by
        refine ⟨fun p hp => hd.1 p (by simp [hp]), ?_⟩
        cases t with
        | nil => trivial
        | cons r t => exact hd.2.2
      have hs' : Supported E t := ⟨fun p hp => hs.1 p (by simp [hp]), hs.2.2⟩
      have e : print (q :: t) ++ '{' :: cs0 = q.print ++ (print t ++ '{' :: cs0) := by simp [print]
      have hpp := parsePiece_print hE q hq (hs.1 q (by simp)) (print t ++ '{' :: cs0) (by
        intro ht c cs h
        cases t with
        | nil => exact Or.inl (List.cons.inj h).1.symm
        | cons r t =>
          have hr := hd.2.1 ht
          have h2 := piece_head r (hd.1 r (by simp)) (print t ++ '{' :: cs0) c cs (by rw [← h]; simp [print])
          by_cases h3 : c = '{'
          · exact Or.inl h3
          · by_cases h4 : c = '}'
            · exact Or.inr h4
            · have := h2.2 ⟨h3, h4⟩
              rw [hr] at this; cases this) (by
        intro he
        have := hs.2.1 he
        cases hpt : print t with
        | nil => rfl
        | cons c cs => rw [hpt] at this; exact this)
      unfold many0Loop at hm
      rw [e, hpp] at hm
      simp only at hm
      split at hm
      · cases hm
      · rcases hl : many0Loop (parsePiece E) fuel (print t ++ '{' :: cs0) with ⟨r2, ps2⟩ | _ | _ | _
        · rw [hl] at hm
          simp only [PRes.ok.injEq] at hm
          obtain ⟨rfl, -⟩ := hm
          exact ih hd' hs' fuel _ hl
        all_goals (rw [hl] at hm; cases hm)

theorem parseFormat_next (hE : E.Lawful) (t : List PieceSyn) (hd : Documented E t) (hs : Supported E t)
    (cs0 : Str) (h : ∃ rest ps, parseFormat E (print t ++ '{' :: cs0) = .ok rest ps) :
    ∃ r q, parsePiece E ('{' :: cs0) = .ok r q := by
  obtain ⟨rest, ps, h⟩ := h
  unfold parseFormat allConsuming many0 at h
  split at h
  · rename_i as hl
    exact many0Loop_next hE t hd hs cs0 _ _ hl
  · cases h
  · rename_i h1 h2
    rcases hm : many0Loop (parsePiece E) ((print t ++ '{' :: cs0).length + 1) (print t ++ '{' :: cs0) with
      ⟨_ | ⟨c, cs⟩, as⟩ | _ | _ | _
    · exact absurd hm (h1 as)
    · exact absurd hm (h2 c cs as)
    all_goals (rw [hm] at h; cases h)

theorem white_cases {c : Char} (h : c.isWhitespace = true) : c ∈ [' ', '\t', '\r', '\n'] := by
  simp only [Char.isWhitespace, Bool.or_eq_true, decide_eq_true_eq] at h
  simp only [List.mem_cons, List.not_mem_nil, or_false]
  rcases h with ((h | h) | h) | h <;> simp [h]

theorem white_outside {c : Char} (h : c.isWhitespace = true) :
    Outside2 c ∧ c ∉ ['#', '+', '-'] ∧ c ∉ ['<', '^', '>', ':', '{', '}'] := by
  have := white_cases h
  revert c; intro c _ hm
  have : ∀ c ∈ [' ', '\t', '\r', '\n'], Outside2 c ∧ c ∉ ['#', '+', '-'] ∧ c ∉ ['<', '^', '>', ':', '{', '}'] := by
    decide
  exact this c hm

/-- What is between the braces of a supported placeholder does not end in white space. -/
theorem body_last (hE : E.Lawful) (ref : Option ArgRef) (spec : Option SpecSyn)
    (hd : (PieceSyn.arg ref spec).Documented E) (a : Str) (c : Char) (hc : c.isWhitespace = true)
    (h : a ++ [c] = optStr ArgRef.print ref ++ optStr (fun s => ':' :: SpecSyn.print s) spec) : False := by
  obtain ⟨o1, o2, o3⟩ := white_outside hc
  have hlast : (optStr ArgRef.print ref ++ optStr (fun s => ':' :: SpecSyn.print s) spec).getLast? = some c := by
    rw [← h]; simp
  cases spec with
  | none =>
    have hm : c ∈ optStr ArgRef.print ref := by
      have := List.mem_of_getLast? hlast
      simpa using this
    cases ref with
    | none => simp at hm
    | some r => exact ref_not_mem hE r (hd.1 r rfl) o1.1.1 hm
  | some s =>
    have hl : (':' :: SpecSyn.print s).getLast? = some c := by
      have e : (optStr ArgRef.print ref ++ ':' :: SpecSyn.print s).getLast? = (':' :: SpecSyn.print s).getLast? := by
        rw [List.getLast?_append]
        cases hx : (':' :: SpecSyn.print s).getLast? with
        | none => simp at hx
        | some d => rfl
      rw [← e]; exact hlast
    rw [SpecSyn.print_eq] at hl
    have hp2 := p2_not_mem hE s (hd.2 s rfl) o1 o2
    cases hx : (SpecSyn.p2 s).getLast? with
    | some d =>
      rw [← List.cons_append, List.getLast?_append, hx] at hl
      obtain rfl : d = c := by simpa using hl
      exact hp2 (List.mem_of_getLast? hx)
    | none =>
      rw [List.getLast?_eq_none_iff] at hx
      rw [hx, List.append_nil] at hl
      simp only [List.mem_cons, List.not_mem_nil, or_false, not_or] at o3
      have key : ∀ o : Option (Option Char × Align), (':' :: optStr printFillAlign o).getLast? = some c → False := by
        intro o hl
        rcases o with _ | ⟨_ | f, al⟩
        · simp at hl; exact o3.2.2.2.1 hl.symm
        · cases al <;> simp [printFillAlign, printAlign] at hl <;> simp [← hl] at o3
        · cases al <;> simp [printFillAlign, printAlign] at hl <;> simp [← hl] at o3
      exact key _ hl

theorem prefix_unique {a b r s : Str} (ha : '}' ∉ a) (hb : '}' ∉ b) (h : a ++ '}' :: r = b ++ '}' :: s) : a = b := by
  induction a generalizing b with
  | nil =>
    cases b with
    | nil => rfl
    | cons y b => simp only [List.nil_append, List.cons_append, List.cons.injEq] at h; simp [← h.1] at hb
  | cons x a ih =>
    cases b with
    | nil => simp only [List.nil_append, List.cons_append, List.cons.injEq] at h; simp [h.1] at ha
    | cons y b =>
      simp only [List.cons_append, List.cons.injEq] at h
      rw [h.1, ih (fun hm => ha (by simp [hm])) (fun hm => hb (by simp [hm])) h.2]

theorem body_noBrace (hE : E.Lawful) (ref : Option ArgRef) (spec : Option SpecSyn)
    (hd : (PieceSyn.arg ref spec).Documented E) (hs : (PieceSyn.arg ref spec).Supported E) :
    '}' ∉ optStr ArgRef.print ref ++ optStr (fun s => ':' :: SpecSyn.print s) spec := by
  simp only [List.mem_append, not_or]
  constructor
  · cases ref with
    | none => simp
    | some r => exact (ref_noBrace hE r (hd.1 r rfl)).2
  · cases spec with
    | none => simp
    | some s => simpa using (spec_noBrace hE s (hd.2 s rfl) (hs.2 s rfl)).2

/-- White space before the closing brace is not accepted. -/
theorem space_rejected (hE : E.Lawful) (ref : Option ArgRef) (spec : Option SpecSyn) (space rest : Str)
    (hd : (PieceSyn.arg ref spec).Documented E) (hs : (PieceSyn.arg ref spec).Supported E)
    (hw : ∀ c ∈ space, c.isWhitespace = true) (hne : space ≠ []) :
    ¬ ∃ r q, parsePiece E ('{' :: (optStr ArgRef.print ref ++ optStr (fun s => ':' :: SpecSyn.print s) spec ++ space ++
      '}' :: rest)) = .ok r q := by
  rintro ⟨r, q, h⟩
  obtain ⟨q', e, -, d, s, -⟩ := parsePiece_sound h
  have hno : '}' ∉ optStr ArgRef.print ref ++ optStr (fun s => ':' :: SpecSyn.print s) spec ++ space := by
    rw [List.mem_append, not_or]
    refine ⟨body_noBrace hE ref spec hd hs, fun hm => ?_⟩
    have := hw _ hm
    revert this; decide
  cases q' with
  | text t =>
    cases t with
    | nil => exact d.1 rfl
    | cons x xs =>
      have := (List.cons.inj e).1
      exact d.2.1 (by rw [← this]; simp)
  | closeBrace => have := (List.cons.inj e).1; revert this; decide
  | openBrace =>
    have e := (List.cons.inj e).2
    change _ = '{' :: r at e
    cases ref with
    | some r' =>
      obtain ⟨c, cs', hp, hc, -⟩ := ref_head hE r' (hd.1 r' rfl)
      simp only [optStr, hp] at e
      exact hc (List.cons.inj e).1
    | none =>
      cases spec with
      | some s => have := (List.cons.inj e).1; revert this; decide
      | none =>
        cases space with
        | nil => exact hne rfl
        | cons c cs =>
          have : c = '{' := (List.cons.inj e).1
          have h2 := hw c (by simp)
          rw [this] at h2; revert h2; decide
  | arg ref' spec' =>
    have e : '{' :: (optStr ArgRef.print ref ++ optStr (fun s => ':' :: SpecSyn.print s) spec ++ space ++ '}' :: rest) =
        '{' :: (optStr ArgRef.print ref' ++ optStr (fun s => ':' :: SpecSyn.print s) spec' ++ '}' :: r) := by
      rw [e]; simp [PieceSyn.print]
    have e2 := prefix_unique hno (body_noBrace hE ref' spec' d s) (List.cons.inj e).2
    obtain ⟨a, c, rfl⟩ : ∃ a c, space = a ++ [c] := ⟨space.dropLast, space.getLast hne, (List.dropLast_concat_getLast hne).symm⟩
    exact body_last hE ref' spec' d _ c (hw c (by simp)) (by rw [← e2, ← List.append_assoc])

theorem first_bad {A : Type} (P : A → Prop) (t : List A) :
    (∀ p ∈ t, P p) ∨ ∃ a p b, t = a ++ p :: b ∧ (∀ q ∈ a, P q) ∧ ¬ P p := by
  induction t with
  | nil => left; simp
  | cons x t ih =>
    by_cases hx : P x
    · rcases ih with h | ⟨a, p, b, rfl, h1, h2⟩
      · left; simpa [hx] using h
      · right; exact ⟨x :: a, p, b, rfl, by simpa [hx] using h1, h2⟩
    · right; exact ⟨[], x, t, rfl, by simp, hx⟩

theorem tree_ok (t : List StdCall.Piece) (h : Tree E t) : ∀ p ∈ t, p.Ok E := by
  induction t with
  | nil => simp
  | cons p t ih => simp only [List.mem_cons, forall_eq_or_imp]; exact ⟨h.1, ih h.2.2.2⟩

/-- A std format string that the parser accepts has no fill but spaces and no white space in its placeholders. -/
theorem good_of_accepted (hE : E.Lawful) (t : List StdCall.Piece) (h : Tree E t)
    (hp : ∃ rest ps, parseFormat E (StdCall.print t) = .ok rest ps) : ∀ p ∈ t, Good p := by
  rcases first_bad Good t with hg | ⟨a, p, b, rfl, hg, hb⟩
  · exact hg
  · exfalso
    obtain ⟨d, s⟩ := tree_prefix a (p :: b) h hg
    have hpo := tree_ok _ h p (by simp)
    cases p with
    | text => exact hb trivial
    | openBrace => exact hb trivial
    | closeBrace => exact hb trivial
    | arg ref spec space =>
      obtain ⟨h1, h2, h3⟩ := hpo
      have e : StdCall.print (a ++ .arg ref spec space :: b) = print (a.map (·.toSyn)) ++
          '{' :: (optStr ArgRef.print ref ++ optStr (fun s => ':' :: SpecSyn.print s) spec ++ space ++
            '}' :: StdCall.print b) := by
        rw [← print_goods hg]
        simp [StdCall.print, StdCall.Piece.print]
      by_cases hfill : ∀ s, spec = some s → ∀ f al, s.align = some (some f, al) → f = ' '
      · have hne : space ≠ [] := fun hn => hb ⟨hn, hfill⟩
        rw [e] at hp
        exact space_rejected hE ref spec space _ ⟨fun r hr => (h1 r hr).1, fun s hs => (h2 s hs).1⟩
          ⟨fun r hr => ref_ok (h1 r hr).2, fun s hs => spec_ok (h2 s hs) (hfill s hs)⟩ h3 hne
          (parseFormat_next hE _ d s _ hp)
      · have : ∃ s f al, spec = some s ∧ s.align = some (some f, al) ∧ f ≠ ' ' := by
          apply Classical.byContradiction
          intro hn
          exact hfill fun s hs f al ha => Classical.byContradiction fun hne => hn ⟨s, f, al, hs, ha, hne⟩
        obtain ⟨sp, f, al, rfl, ha, hne⟩ := this
        have hpanic := (parseFormat_panic_iff hE (StdCall.print (a ++ .arg ref (some sp) space :: b))).2
          ⟨a.map (·.toSyn), ref, f, al, SpecSyn.p2 sp ++ space ++ '}' :: StdCall.print b, d, s,
            fun r hr => ⟨(h1 r hr).1, ref_ok (h1 r hr).2⟩, hne, by
              rw [e]; simp [SpecSyn.print_eq, ha, printFillAlign]⟩
        obtain ⟨rest, ps, hp⟩ := hp
        rw [hp] at hpanic
        cases hpanic

end StdCallLemmas

end Stylish
