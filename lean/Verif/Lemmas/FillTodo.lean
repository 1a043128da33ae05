import Verif.Lemmas.GrammarSpec
/-
When the format string parser panics: only at a fill character other than a space.
-/

namespace Stylish

open Nom Format Spec.Syntax

variable {E : Env} {A B C : Type}

/-- A parser that never panics. -/
def NeverPanics (p : P A) : Prop := ∀ s, p s ≠ .panic

theorem np_bind {x : PRes A} {f : Str → A → PRes B} (h : x.bind f = .panic) :
    x = .panic ∨ ∃ s a, x = .ok s a ∧ f s a = .panic := by
  cases x with
  | ok s a => exact Or.inr ⟨s, a, rfl, h⟩
  | error => cases h
  | failure => cases h
  | panic => exact Or.inl rfl

theorem map_panic_iff (p : P A) (f : A → B) (s : Str) : map p f s = .panic ↔ p s = .panic := by
  unfold map; cases p s <;> simp

theorem opt_panic_iff (p : P A) (s : Str) : opt p s = .panic ↔ p s = .panic := by
  unfold opt; cases p s <;> simp

theorem cut_panic_iff (p : P A) (s : Str) : cut p s = .panic ↔ p s = .panic := by
  unfold cut; cases p s <;> simp

theorem orElse_panic_iff (p q : P A) (s : Str) :
    orElse p q s = .panic ↔ p s = .panic ∨ p s = .error ∧ q s = .panic := by
  unfold orElse; cases p s <;> simp

theorem pair_panic_iff (p : P A) (q : P B) (s : Str) :
    pair p q s = .panic ↔ p s = .panic ∨ ∃ s1 a, p s = .ok s1 a ∧ q s1 = .panic := by
  unfold pair
  cases hp : p s with
  | ok s1 a =>
    simp only [PRes.bind]
    cases hq : q s1 <;> simp [hq]
  | _ => simp [PRes.bind]

theorem NeverPanics.map {p : P A} (h : NeverPanics p) (f : A → B) : NeverPanics (map p f) :=
  fun s hs => h s ((map_panic_iff p f s).1 hs)

theorem NeverPanics.value {p : P A} (h : NeverPanics p) (b : B) : NeverPanics (value b p) := h.map _

theorem NeverPanics.opt {p : P A} (h : NeverPanics p) : NeverPanics (opt p) :=
  fun s hs => h s ((opt_panic_iff p s).1 hs)

theorem NeverPanics.cut {p : P A} (h : NeverPanics p) : NeverPanics (cut p) :=
  fun s hs => h s ((cut_panic_iff p s).1 hs)

theorem NeverPanics.mapRes {p : P A} (h : NeverPanics p) (f : A → Option B) : NeverPanics (mapRes p f) := by
  intro s hs
  unfold Nom.mapRes at hs
  cases hp : p s with
  | ok r a => rw [hp] at hs; simp only at hs; split at hs <;> cases hs
  | panic => exact h s hp
  | error => rw [hp] at hs; cases hs
  | failure => rw [hp] at hs; cases hs

theorem NeverPanics.pair {p : P A} {q : P B} (hp : NeverPanics p) (hq : NeverPanics q) :
    NeverPanics (pair p q) := by
  intro s hs
  rcases (pair_panic_iff p q s).1 hs with h | ⟨s1, a, -, h⟩
  · exact hp s h
  · exact hq s1 h

theorem NeverPanics.preceded {p : P A} {q : P B} (hp : NeverPanics p) (hq : NeverPanics q) :
    NeverPanics (preceded p q) := (hp.pair hq).map _

theorem NeverPanics.terminated {p : P A} {q : P B} (hp : NeverPanics p) (hq : NeverPanics q) :
    NeverPanics (terminated p q) := (hp.pair hq).map _

theorem NeverPanics.delimited {p : P A} {q : P B} {r : P C} (hp : NeverPanics p) (hq : NeverPanics q)
    (hr : NeverPanics r) : NeverPanics (delimited p q r) := hp.preceded (hq.terminated hr)

theorem NeverPanics.alt {ps : List (P A)} (h : ∀ p ∈ ps, NeverPanics p) : NeverPanics (alt ps) := by
  induction ps with
  | nil => intro s hs; cases hs
  | cons p ps ih =>
    cases ps with
    | nil => exact h p (by simp)
    | cons q ps =>
      intro s hs
      rw [alt_cons, orElse_panic_iff] at hs
      rcases hs with hs | ⟨-, hs⟩
      · exact h p (by simp) s hs
      · exact ih (fun p hp => h p (by simp [hp])) s hs

theorem np_tag (t : Str) : NeverPanics (tag t) := by
  intro s hs
  unfold tag at hs
  split at hs <;> cases hs

theorem np_satisfy (p : Char → Bool) : NeverPanics (satisfy p) := by
  intro s hs
  cases s with
  | nil => cases hs
  | cons c cs => simp only [satisfy] at hs; split at hs <;> cases hs

theorem np_digit1 : NeverPanics digit1 := by
  intro s hs
  unfold digit1 at hs
  split at hs <;> cases hs

theorem NeverPanics.recognize {p : P A} (h : NeverPanics p) : NeverPanics (recognize p) := by
  intro s hs
  unfold Nom.recognize at hs
  cases hp : p s with
  | panic => exact h s hp
  | _ => rw [hp] at hs; cases hs

theorem NeverPanics.many0Loop {p : P A} (h : NeverPanics p) (n : Nat) : NeverPanics (many0Loop p n) := by
  induction n with
  | zero => intro s hs; cases hs
  | succ n ih =>
    intro s hs
    unfold Nom.many0Loop at hs
    cases hp : p s with
    | panic => exact h s hp
    | error => rw [hp] at hs; cases hs
    | failure => rw [hp] at hs; cases hs
    | ok r a =>
      rw [hp] at hs
      simp only at hs
      split at hs
      · cases hs
      · cases hl : Nom.many0Loop p n r with
        | panic => exact ih r hl
        | _ => rw [hl] at hs; cases hs

theorem NeverPanics.many1 {p : P A} (h : NeverPanics p) : NeverPanics (many1 p) := by
  intro s hs
  unfold Nom.many1 at hs
  rcases np_bind hs with hs | ⟨s1, a, -, hs⟩
  · exact h s hs
  · cases hl : Nom.many0Loop p (s1.length + 1) s1 with
    | panic => exact h.many0Loop _ _ hl
    | _ => rw [hl] at hs; cases hs

theorem NeverPanics.separatedLoop {sep : P B} {p : P A} (h : NeverPanics sep) (h' : NeverPanics p) (n : Nat) :
    NeverPanics (separatedLoop sep p n) := by
  induction n with
  | zero => intro s hs; cases hs
  | succ n ih =>
    intro s hs
    unfold Nom.separatedLoop at hs
    cases hp : sep s with
    | panic => exact h s hp
    | error => rw [hp] at hs; cases hs
    | failure => rw [hp] at hs; cases hs
    | ok r a =>
      rw [hp] at hs
      simp only at hs
      split at hs
      · cases hs
      · cases hp' : p r with
        | panic => exact h' r hp'
        | error => rw [hp'] at hs; cases hs
        | failure => rw [hp'] at hs; cases hs
        | ok r2 a2 =>
          rw [hp'] at hs
          simp only at hs
          cases hl : Nom.separatedLoop sep p n r2 with
          | panic => exact ih r2 hl
          | _ => rw [hl] at hs; cases hs

theorem NeverPanics.separatedList0 {sep : P B} {p : P A} (h : NeverPanics sep) (h' : NeverPanics p) :
    NeverPanics (separatedList0 sep p) := by
  intro s hs
  unfold Nom.separatedList0 at hs
  cases hp : p s with
  | panic => exact h' s hp
  | error => rw [hp] at hs; cases hs
  | failure => rw [hp] at hs; cases hs
  | ok r a =>
    rw [hp] at hs
    simp only at hs
    cases hl : Nom.separatedLoop sep p (r.length + 1) r with
    | panic => exact h.separatedLoop h' _ _ hl
    | _ => rw [hl] at hs; cases hs

/-! ### The parsers of the macro -/

theorem np_align : NeverPanics parseAlign := by
  refine .alt fun p hp => ?_
  simp only [List.mem_cons, List.not_mem_nil, or_false] at hp
  rcases hp with rfl | rfl | rfl <;> exact (np_tag _).value _

theorem np_fillAlign : NeverPanics parseFillAlign := by
  refine .opt (.alt fun p hp => ?_)
  simp only [List.mem_cons, List.not_mem_nil, or_false] at hp
  rcases hp with rfl | rfl
  · exact (np_satisfy _).pair np_align
  · exact np_align.map _

theorem np_sign : NeverPanics parseSign := by
  refine .alt fun p hp => ?_
  simp only [List.mem_cons, List.not_mem_nil, or_false] at hp
  rcases hp with rfl | rfl <;> exact (np_tag _).value _

theorem np_color : NeverPanics parseColor := by
  refine .alt fun p hp => ?_
  simp only [List.mem_cons, List.not_mem_nil, or_false] at hp
  rcases hp with rfl | rfl | rfl | rfl | rfl | rfl | rfl | rfl | rfl <;> exact (np_tag _).value _

theorem np_restyle : NeverPanics parseRestyle := by
  refine .alt fun p hp => ?_
  simp only [List.mem_cons, List.not_mem_nil, or_false] at hp
  rcases hp with rfl | rfl | rfl
  · exact ((np_tag _).preceded ((np_tag _).preceded np_color).cut).map _
  · exact ((np_tag _).preceded ((np_tag _).preceded np_color).cut).map _
  · refine NeverPanics.map (.alt fun p hp => ?_) _
    simp only [List.mem_cons, List.not_mem_nil, or_false] at hp
    rcases hp with rfl | rfl | rfl <;> exact (np_tag _).value _

theorem np_styleDiff : NeverPanics parseStyleDiff :=
  ((np_tag _).separatedList0 np_restyle.cut).map _

theorem np_identifier : NeverPanics (identifier E) := by
  refine .recognize (.pair (.alt fun p hp => ?_) fun s => (np_satisfy _).many0Loop _ s)
  simp only [List.mem_cons, List.not_mem_nil, or_false] at hp
  rcases hp with rfl | rfl <;> exact np_satisfy _

theorem np_ref : NeverPanics (parseFormatArgRef E) := by
  refine .alt fun p hp => ?_
  simp only [List.mem_cons, List.not_mem_nil, or_false] at hp
  rcases hp with rfl | rfl
  · exact (np_digit1.mapRes _).map _
  · exact np_identifier.map _

theorem np_count : NeverPanics (parseCount E) := by
  refine .alt fun p hp => ?_
  simp only [List.mem_cons, List.not_mem_nil, or_false] at hp
  rcases hp with rfl | rfl
  · exact (np_ref.terminated (np_tag _)).map _
  · exact (np_digit1.mapRes _).map _

theorem np_trait : NeverPanics parseTrait := by
  refine .opt (.alt fun p hp => ?_)
  simp only [List.mem_cons, List.not_mem_nil, or_false] at hp
  rcases hp with rfl | rfl | rfl | rfl | rfl | rfl | rfl | rfl | rfl | rfl | rfl <;> exact (np_tag _).value _

theorem np_lit : NeverPanics parseLit := by
  refine .alt fun p hp => ?_
  simp only [List.mem_cons, List.not_mem_nil, or_false] at hp
  rcases hp with rfl | rfl | rfl
  · exact (np_satisfy _).many1.recognize.map _
  · exact (np_tag _).value _
  · exact (np_tag _).value _

/-! ### Where it panics -/

theorem checkFill_panic {s : Str} {o : Option (Char × Align)} (h : checkFill s o = .panic) :
    ∃ fill align, o = some (fill, align) ∧ fill ≠ ' ' := by
  cases o with
  | none => cases h
  | some p =>
    obtain ⟨fill, align⟩ := p
    simp only [checkFill] at h
    split at h
    · exact ⟨fill, align, rfl, by assumption⟩
    · cases h

/-- A format specification makes the parser panic exactly when it begins with a fill other than a space. -/
theorem parseFormatSpec_panic_iff (s : Str) :
    parseFormatSpec E s = .panic ↔ ∃ fill align rest, fill ≠ ' ' ∧ s = fill :: printAlign align :: rest := by
  constructor
  · intro h
    unfold parseFormatSpec at h
    rcases np_bind h with h | ⟨s1, o, hf, h⟩
    · exact absurd h (np_fillAlign _)
    rcases np_bind h with h | ⟨s2, a, -, h⟩
    · obtain ⟨fill, align, rfl, hne⟩ := checkFill_panic h
      rcases fillAlign_sound hf with ⟨hx, -⟩ | ⟨a, hx, -⟩ | ⟨c, a, hx, rfl⟩
      · cases hx
      · obtain ⟨rfl, rfl⟩ := Prod.mk.inj (Option.some.inj hx); exact absurd rfl hne
      · obtain ⟨rfl, rfl⟩ := Prod.mk.inj (Option.some.inj hx); exact ⟨fill, align, s1, hne, rfl⟩
    exfalso
    rcases np_bind h with h | ⟨_, _, -, h⟩
    · exact np_sign.opt _ h
    rcases np_bind h with h | ⟨_, _, -, h⟩
    · exact ((np_tag _).value _).opt _ h
    rcases np_bind h with h | ⟨_, _, -, h⟩
    · exact ((np_tag _).value _).opt _ h
    rcases np_bind h with h | ⟨_, _, -, h⟩
    · exact np_count.opt _ h
    rcases np_bind h with h | ⟨_, _, -, h⟩
    · exact ((np_tag _).preceded np_count).opt _ h
    rcases np_bind h with h | ⟨_, _, -, h⟩
    · exact ((np_tag _).delimited np_styleDiff.cut (np_tag _)).opt _ h
    rcases np_bind h with h | ⟨_, _, -, h⟩
    · exact np_trait _ h
    cases h
  · rintro ⟨fill, align, rest, hne, rfl⟩
    unfold parseFormatSpec
    rw [fillAlign_fill]
    simp [PRes.bind, checkFill, hne]

/-- The inside of a placeholder makes the parser panic exactly when it is an optional reference and a
specification that begins with a fill other than a space. -/
theorem parseFormatArg_panic_iff (hE : E.Lawful) (s : Str) :
    parseFormatArg E s = .panic ↔ ∃ (ref : Option ArgRef) (fill : Char) (align : Align) (rest : Str),
      (∀ r, ref = some r → r.Documented E ∧ r.Supported E) ∧ fill ≠ ' ' ∧
      s = optStr ArgRef.print ref ++ ':' :: fill :: printAlign align :: rest := by
  constructor
  · intro h
    unfold parseFormatArg at h
    rcases np_bind h with h | ⟨s1, o, h1, h⟩
    · exact absurd h (np_ref.opt _)
    rcases np_bind h with h | ⟨_, _, -, h⟩
    · rw [opt_panic_iff, preceded, map_panic_iff, pair_panic_iff] at h
      rcases h with h | ⟨s2, a, h2, h⟩
      · exact absurd h (np_tag _ _)
      · rw [tag_ok_iff] at h2
        obtain ⟨fill, align, rest, hne, rfl⟩ := (parseFormatSpec_panic_iff _).1 h
        obtain ⟨rfl, -⟩ := h2
        rw [opt_ok_iff] at h1
        rcases h1 with ⟨f, rfl, h1⟩ | ⟨rfl, rfl, -⟩
        · obtain ⟨r, rfl, rfl, g1, g2⟩ := parseFormatArgRef_sound h1
          exact ⟨some r, fill, align, rest, by rintro _ ⟨⟩; exact ⟨g1, g2⟩, hne, rfl⟩
        · exact ⟨none, fill, align, rest, by simp, hne, rfl⟩
    · cases h
  · rintro ⟨ref, fill, align, rest, href, hne, rfl⟩
    have hp : Punct ':' := by decide
    have h1 : opt (parseFormatArgRef E) (optStr ArgRef.print ref ++ ':' :: fill :: printAlign align :: rest) =
        .ok (':' :: fill :: printAlign align :: rest) (ref.map ArgRef.toRef) := by
      cases ref with
      | none =>
        refine opt_none (parseFormatArgRef_error ?_)
        rintro c cs ⟨⟩
        exact ⟨hp.not_digit, hE.punct_start hp, hp.2.2⟩
      | some r =>
        exact opt_some (parseFormatArgRef_print hE r (href r rfl).1 (href r rfl).2 _ (refStop_punct hE r hp _))
    unfold parseFormatArg
    rw [h1]
    have h2 : opt (preceded (tag (str ":")) (parseFormatSpec E)) (':' :: fill :: printAlign align :: rest) =
        .panic := by
      rw [opt_panic_iff, preceded, map_panic_iff, pair_panic_iff]
      exact Or.inr ⟨_, _, tag_append (str ":") (fill :: printAlign align :: rest),
        (parseFormatSpec_panic_iff _).2 ⟨fill, align, rest, hne, rfl⟩⟩
    simp only [PRes.bind, h2]

theorem parsePiece_panic_iff (hE : E.Lawful) (s : Str) :
    parsePiece E s = .panic ↔ ∃ (ref : Option ArgRef) (fill : Char) (align : Align) (rest : Str),
      (∀ r, ref = some r → r.Documented E ∧ r.Supported E) ∧ fill ≠ ' ' ∧
      s = '{' :: (optStr ArgRef.print ref ++ ':' :: fill :: printAlign align :: rest) := by
  simp only [parsePiece, alt_cons, alt_one, orElse_panic_iff, parseArg, map_panic_iff, delimited, preceded,
    terminated, pair_panic_iff, cut_panic_iff]
  constructor
  · rintro (h | ⟨-, h | ⟨s1, a, h1, h | ⟨s2, a2, -, h⟩⟩⟩)
    · exact absurd h (np_lit _)
    · exact absurd h (np_tag _ _)
    · rw [tag_ok_iff] at h1
      obtain ⟨rfl, -⟩ := h1
      obtain ⟨ref, fill, align, rest, h2, h3, rfl⟩ := (parseFormatArg_panic_iff hE _).1 h
      exact ⟨ref, fill, align, rest, h2, h3, rfl⟩
    · exact absurd h (np_tag _ _)
  · rintro ⟨ref, fill, align, rest, h2, h3, rfl⟩
    right
    refine ⟨?_, Or.inr ⟨_, _, tag_append (str "{") _, Or.inl ((parseFormatArg_panic_iff hE _).2
      ⟨ref, fill, align, rest, h2, h3, rfl⟩)⟩⟩
    have hhead : ∀ cs, optStr ArgRef.print ref ++ ':' :: fill :: printAlign align :: rest ≠ '{' :: cs := by
      intro cs h
      cases ref with
      | none => cases h
      | some r =>
        obtain ⟨c, cs', hp, hc, -⟩ := ref_head hE r (h2 r rfl).1
        simp only [optStr, hp] at h
        exact hc (List.cons.inj h).1
    simp only [parseLit, alt_cons, alt_one, orElse_error_iff, map_error_iff, value_error_iff, tag_error_iff]
    refine ⟨rfl, ?_, ?_⟩
    · rintro ⟨r, hr⟩
      exact hhead r ((List.cons.inj hr).2).symm
    · rintro ⟨r, hr⟩
      have := (List.cons.inj hr).1
      revert this; decide

theorem startsWithAlign_append_left {s t : Str} (h : startsWithAlign (s ++ t) = false) : startsWithAlign s = false := by
  cases s with
  | nil => rfl
  | cons c cs => exact h

theorem many0Loop_panic (fuel : Nat) {s : Str}
    (h : many0Loop (parsePiece E) fuel s = .panic) :
    ∃ t s', s = print t ++ s' ∧ Documented E t ∧ Supported E t ∧ parsePiece E s' = .panic := by
  induction fuel generalizing s with
  | zero => cases h
  | succ fuel ih =>
    unfold many0Loop at h
    rcases hp : parsePiece E s with ⟨rest, p⟩ | _ | _ | _
    · rw [hp] at h
      simp only at h
      split at h
      · cases h
      · have hl : many0Loop (parsePiece E) fuel rest = .panic := by
          cases hl : many0Loop (parsePiece E) fuel rest with
          | panic => rfl
          | _ => rw [hl] at h; cases h
        obtain ⟨t, s', rfl, hd, hs, hpan⟩ := ih hl
        obtain ⟨q, rfl, rfl, g1, g2, g3, g4⟩ := parsePiece_sound hp
        refine ⟨q :: t, s', by simp [print], ⟨?_, ?_⟩, ⟨?_, ⟨fun he => startsWithAlign_append_left (g4 he), hs.2⟩⟩,
          hpan⟩
        · intro p hp
          rcases List.mem_cons.1 hp with rfl | hp
          · exact g1
          · exact hd.1 p hp
        · cases t with
          | nil => trivial
          | cons r t =>
            refine ⟨fun ht => ?_, hd.2⟩
            have hr := hd.1 r (by simp)
            rcases hx : r.print with _ | ⟨c, cs⟩
            · exact absurd hx (piece_print_ne r hr)
            · have e : print (r :: t) ++ s' = c :: (cs ++ print t ++ s') := by simp [print, hx]
              have h1 := g3 ht c _ e
              have h2 := piece_head r hr (print t) c _ (by rw [hx]; rfl)
              cases hir : r.isText with
              | false => rfl
              | true =>
                have := h2.1 hir
                rcases h1 with rfl | rfl
                · exact absurd rfl this.1
                · exact absurd rfl this.2
        · intro p hp
          rcases List.mem_cons.1 hp with rfl | hp
          · exact g2
          · exact hs.1 p hp
    · rw [hp] at h; cases h
    · rw [hp] at h; cases h
    · exact ⟨[], s, rfl, ⟨by simp, trivial⟩, ⟨by simp, trivial⟩, hp⟩

theorem many0Loop_panic_of (hE : E.Lawful) (t : List PieceSyn) (hd : Documented E t) (hs : Supported E t)
    (s : Str) (hbrace : ∃ cs, s = '{' :: cs) (hp : parsePiece E s = .panic)
    (fuel : Nat) (hf : (print t).length < fuel) :
    many0Loop (parsePiece E) fuel (print t ++ s) = .panic := by
  induction t generalizing fuel with
  | nil =>
    cases fuel with
    | zero => simp at hf
    | succ fuel =>
      unfold many0Loop
      simp only [print, List.flatMap_nil, List.nil_append, hp]
  | cons q t ih =>
    cases fuel with
    | zero => simp at hf
    | succ fuel =>
      have hq := hd.1 q (by simp)
      have hd' : Documented E t := by
        refine ⟨fun p hp => hd.1 p (by simp [hp]), ?_⟩
        cases t with
        | nil => trivial
        | cons r t => exact hd.2.2
      have hs' : Supported E t := ⟨fun p hp => hs.1 p (by simp [hp]), hs.2.2⟩
      have hlen : 0 < q.print.length := List.length_pos_iff.2 (piece_print_ne q hq)
      have hl : (print (q :: t)).length = q.print.length + (print t).length := by simp [print]
      have e : print (q :: t) ++ s = q.print ++ (print t ++ s) := by simp [print]
      obtain ⟨cs0, rfl⟩ := hbrace
      have hpp := parsePiece_print hE q hq (hs.1 q (by simp)) (print t ++ '{' :: cs0) (by
        intro ht c cs h
        cases t with
        | nil => exact Or.inl (List.cons.inj h).1.symm
        | cons r t =>
          have hr := hd.2.1 ht
          have h2 := piece_head r (hd.1 r (by simp)) (print t ++ '{' :: cs0) c cs (by rw [← h]; simp [print])
          by_cases h3 : c = '{'
          · exact Or.inl h3
          · by_cases h4 : c = '}'
            · exact Or.inr h4
            · have := h2.2 ⟨h3, h4⟩
              rw [hr] at this; cases this) (by
        intro he
        have := hs.2.1 he
        cases hpt : print t with
        | nil => rfl
        | cons c cs => rw [hpt] at this; exact this)
      have := ih hd' hs' fuel (by omega)
      unfold many0Loop
      rw [e, hpp]
      simp only [this]
      rw [if_neg (by simp only [List.length_append, List.length_cons]; omega)]

/-- The parser panics exactly on the strings that have, after some supported pieces, a placeholder whose
specification begins with a fill other than a space. -/
theorem parseFormat_panic_iff (hE : E.Lawful) (s : Str) :
    parseFormat E s = .panic ↔ ∃ (t : List PieceSyn) (ref : Option ArgRef) (fill : Char) (align : Align) (rest : Str),
      Documented E t ∧ Supported E t ∧ (∀ r, ref = some r → r.Documented E ∧ r.Supported E) ∧ fill ≠ ' ' ∧
      s = print t ++ '{' :: (optStr ArgRef.print ref ++ ':' :: fill :: printAlign align :: rest) := by
  have hm : parseFormat E s = .panic ↔ many0Loop (parsePiece E) (s.length + 1) s = .panic := by
    unfold parseFormat allConsuming many0
    rcases many0Loop (parsePiece E) (s.length + 1) s with ⟨_ | _, _⟩ | _ | _ | _ <;> simp
  rw [hm]
  constructor
  · intro h
    obtain ⟨t, s', rfl, hd, hs, hp⟩ := many0Loop_panic _ h
    obtain ⟨ref, fill, align, rest, h2, h3, rfl⟩ := (parsePiece_panic_iff hE _).1 hp
    exact ⟨t, ref, fill, align, rest, hd, hs, h2, h3, rfl⟩
  · rintro ⟨t, ref, fill, align, rest, hd, hs, h2, h3, rfl⟩
    refine many0Loop_panic_of hE t hd hs _ ⟨_, rfl⟩ ((parsePiece_panic_iff hE _).2
      ⟨ref, fill, align, rest, h2, h3, rfl⟩) _ ?_
    simp only [List.length_append]
    omega

end Stylish
