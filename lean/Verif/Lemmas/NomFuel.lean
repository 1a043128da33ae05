import Verif.Lemmas.Nom
import Verif.Model.Format
/-
The loops of `Model/Nom.lean` are bounded by the length of the input. For parsers that leave a suffix of their
input, the bound is never reached: the loops satisfy the unbounded recursive equations of nom.
-/

namespace Stylish.Nom

open Format

variable {A B C : Type}

/-- What the parser leaves is the rest of the input. -/
def LeavesSuffix (p : P A) : Prop := ∀ s rest a, p s = .ok rest a → rest <:+ s

theorem LeavesSuffix.length {p : P A} (h : LeavesSuffix p) {s rest : Str} {a : A} (e : p s = .ok rest a) :
    rest.length ≤ s.length := (h s rest a e).length_le

theorem many0Loop_succ (p : P A) (fuel : Nat) (s : Str) : many0Loop p (fuel + 1) s =
    match p s with
    | .error => .ok s []
    | .failure => .failure
    | .panic => .panic
    | .ok rest a =>
      if rest.length = s.length then .error
      else match many0Loop p fuel rest with
        | .ok rest as => .ok rest (a :: as)
        | r => r := rfl

theorem separatedLoop_succ (sep : P B) (p : P A) (fuel : Nat) (s : Str) : separatedLoop sep p (fuel + 1) s =
    match sep s with
    | .error => .ok s []
    | .failure => .failure
    | .panic => .panic
    | .ok s1 _ =>
      if s1.length = s.length then .error
      else match p s1 with
        | .error => .ok s []
        | .failure => .failure
        | .panic => .panic
        | .ok s2 a => match separatedLoop sep p fuel s2 with
          | .ok rest as => .ok rest (a :: as)
          | r => r := rfl

/-- With enough iterations, more make no difference. -/
theorem many0Loop_fuel {p : P A} (hp : LeavesSuffix p) (fuel fuel' : Nat) (s : Str) (h : s.length < fuel)
    (h' : s.length < fuel') : many0Loop p fuel s = many0Loop p fuel' s := by
  induction fuel generalizing fuel' s with
  | zero => omega
  | succ fuel ih =>
    cases fuel' with
    | zero => omega
    | succ fuel' =>
      simp only [many0Loop]
      cases e : p s with
      | error => rfl
      | failure => rfl
      | panic => rfl
      | ok rest a =>
        simp only []
        split
        · rfl
        · have := hp.length e
          rw [ih fuel' rest (by omega) (by omega)]

/-- `many0` satisfies the equation of nom's loop. -/
theorem many0_eq {p : P A} (hp : LeavesSuffix p) (s : Str) : many0 p s =
    match p s with
    | .error => .ok s []
    | .failure => .failure
    | .panic => .panic
    | .ok rest a =>
      if rest.length = s.length then .error
      else match many0 p rest with
        | .ok rest as => .ok rest (a :: as)
        | r => r := by
  unfold many0
  rw [many0Loop_succ]
  cases e : p s with
  | error => rfl
  | failure => rfl
  | panic => rfl
  | ok rest a =>
    simp only []
    split
    · rfl
    · have := hp.length e
      rw [many0Loop_fuel hp s.length (rest.length + 1) rest (by omega) (by omega)]

theorem separatedLoop_fuel {sep : P B} {p : P A} (hs : LeavesSuffix sep) (hp : LeavesSuffix p) (fuel fuel' : Nat)
    (s : Str) (h : s.length < fuel) (h' : s.length < fuel') :
    separatedLoop sep p fuel s = separatedLoop sep p fuel' s := by
  induction fuel generalizing fuel' s with
  | zero => omega
  | succ fuel ih =>
    cases fuel' with
    | zero => omega
    | succ fuel' =>
      simp only [separatedLoop]
      cases e : sep s with
      | error => rfl
      | failure => rfl
      | panic => rfl
      | ok s1 a =>
        simp only []
        split
        · rfl
        · have h1 := hs.length e
          cases e' : p s1 with
          | error => rfl
          | failure => rfl
          | panic => rfl
          | ok s2 b =>
            have h2 := hp.length e'
            simp only []
            rw [ih fuel' s2 (by omega) (by omega)]

/-- `separated_list0` after its first element: the equation of nom's loop. -/
theorem separatedLoop_eq {sep : P B} {p : P A} (hs : LeavesSuffix sep) (hp : LeavesSuffix p) (s : Str) :
    separatedLoop sep p (s.length + 1) s =
    match sep s with
    | .error => .ok s []
    | .failure => .failure
    | .panic => .panic
    | .ok s1 _ =>
      if s1.length = s.length then .error
      else match p s1 with
        | .error => .ok s []
        | .failure => .failure
        | .panic => .panic
        | .ok s2 a => match separatedLoop sep p (s2.length + 1) s2 with
          | .ok rest as => .ok rest (a :: as)
          | r => r := by
  rw [separatedLoop_succ]
  cases e : sep s with
  | error => rfl
  | failure => rfl
  | panic => rfl
  | ok s1 a =>
    simp only []
    split
    · rfl
    · have h1 := hs.length e
      cases e' : p s1 with
      | error => rfl
      | failure => rfl
      | panic => rfl
      | ok s2 b =>
        have h2 := hp.length e'
        simp only []
        rw [separatedLoop_fuel hs hp s.length (s2.length + 1) s2 (by omega) (by omega)]

/-! ### All parsers used leave a suffix -/

theorem tag_suffix (t : Str) : LeavesSuffix (tag t) := by
  intro s rest a h
  exact ⟨t, ((tag_ok_iff _ _ _ _).1 h).1.symm⟩

theorem satisfy_suffix (q : Char → Bool) : LeavesSuffix (satisfy q) := by
  intro s rest c h
  obtain ⟨h, -⟩ := (satisfy_ok_iff _ _ _ _).1 h
  exact ⟨[c], h.symm⟩

theorem digit1_suffix : LeavesSuffix digit1 := by
  intro s rest a h
  unfold digit1 at h
  split at h
  · cases h
  · cases h
    exact List.dropWhile_suffix _

theorem map_suffix {p : P A} (f : A → B) (h : LeavesSuffix p) : LeavesSuffix (map p f) := by
  intro s rest b e
  obtain ⟨a, e, -⟩ := (map_ok_iff _ _ _ _ _).1 e
  exact h _ _ _ e

theorem mapRes_suffix {p : P A} (f : A → Option B) (h : LeavesSuffix p) : LeavesSuffix (mapRes p f) := by
  intro s rest b e
  obtain ⟨a, e, -⟩ := (mapRes_ok_iff _ _ _ _ _).1 e
  exact h _ _ _ e

theorem value_suffix {p : P A} (b : B) (h : LeavesSuffix p) : LeavesSuffix (value b p) := map_suffix _ h

theorem opt_suffix {p : P A} (h : LeavesSuffix p) : LeavesSuffix (opt p) := by
  intro s rest o e
  unfold opt at e
  cases e' : p s with
  | ok r a => rw [e'] at e; cases e; exact h _ _ _ e'
  | error => rw [e'] at e; cases e; exact List.suffix_refl _
  | failure => rw [e'] at e; cases e
  | panic => rw [e'] at e; cases e

theorem cut_suffix {p : P A} (h : LeavesSuffix p) : LeavesSuffix (cut p) :=
  fun _ _ _ e => h _ _ _ ((cut_ok_iff _ _ _ _).1 e)

theorem alt_suffix {ps : List (P A)} (h : ∀ p ∈ ps, LeavesSuffix p) : LeavesSuffix (alt ps) := by
  induction ps with
  | nil => intro s rest a e; cases e
  | cons p ps ih =>
    cases ps with
    | nil => exact h p (by simp)
    | cons q qs =>
      intro s rest a e
      have e : orElse p (alt (q :: qs)) s = .ok rest a := e
      unfold orElse at e
      cases e' : p s with
      | error => rw [e'] at e; exact ih (fun r hr => h r (List.mem_cons_of_mem _ hr)) _ _ _ e
      | ok r b => rw [e'] at e; cases e; exact h p (by simp) _ _ _ e'
      | failure => rw [e'] at e; cases e
      | panic => rw [e'] at e; cases e

theorem pair_suffix {p : P A} {q : P B} (hp : LeavesSuffix p) (hq : LeavesSuffix q) : LeavesSuffix (pair p q) := by
  intro s rest ab e
  unfold pair at e
  obtain ⟨r1, a, e1, e⟩ := (bind_ok_iff _ _ _ _).1 e
  obtain ⟨r2, b, e2, e⟩ := (bind_ok_iff _ _ _ _).1 e
  cases e
  exact (hq _ _ _ e2).trans (hp _ _ _ e1)

theorem preceded_suffix {p : P A} {q : P B} (hp : LeavesSuffix p) (hq : LeavesSuffix q) :
    LeavesSuffix (preceded p q) := map_suffix _ (pair_suffix hp hq)

theorem terminated_suffix {p : P A} {q : P B} (hp : LeavesSuffix p) (hq : LeavesSuffix q) :
    LeavesSuffix (terminated p q) := map_suffix _ (pair_suffix hp hq)

theorem delimited_suffix {p : P A} {q : P B} {r : P C} (hp : LeavesSuffix p) (hq : LeavesSuffix q)
    (hr : LeavesSuffix r) : LeavesSuffix (delimited p q r) := preceded_suffix hp (terminated_suffix hq hr)

theorem recognize_suffix {p : P A} (h : LeavesSuffix p) : LeavesSuffix (recognize p) := by
  intro s rest a e
  unfold recognize at e
  cases e' : p s with
  | ok r b => rw [e'] at e; cases e; exact h _ _ _ e'
  | error => rw [e'] at e; cases e
  | failure => rw [e'] at e; cases e
  | panic => rw [e'] at e; cases e

theorem many0Loop_suffix {p : P A} (h : LeavesSuffix p) (fuel : Nat) : LeavesSuffix (many0Loop p fuel) := by
  induction fuel with
  | zero => intro s rest a e; cases e
  | succ fuel ih =>
    intro s rest as e
    simp only [many0Loop] at e
    cases e' : p s with
    | error => rw [e'] at e; cases e; exact List.suffix_refl _
    | failure => rw [e'] at e; cases e
    | panic => rw [e'] at e; cases e
    | ok r b =>
      rw [e'] at e
      simp only [] at e
      split at e
      · cases e
      · cases e2 : many0Loop p fuel r with
        | ok r2 as2 => rw [e2] at e; cases e; exact (ih _ _ _ e2).trans (h _ _ _ e')
        | error => rw [e2] at e; cases e
        | failure => rw [e2] at e; cases e
        | panic => rw [e2] at e; cases e

theorem many0_suffix {p : P A} (h : LeavesSuffix p) : LeavesSuffix (many0 p) :=
  fun s rest a e => many0Loop_suffix h _ s rest a e

theorem many1_suffix {p : P A} (h : LeavesSuffix p) : LeavesSuffix (many1 p) := by
  intro s rest as e
  unfold many1 at e
  obtain ⟨r, a, e1, e⟩ := (bind_ok_iff _ _ _ _).1 e
  cases e2 : many0Loop p (r.length + 1) r with
  | ok r2 as2 => rw [e2] at e; cases e; exact (many0Loop_suffix h _ _ _ _ e2).trans (h _ _ _ e1)
  | error => rw [e2] at e; cases e
  | failure => rw [e2] at e; cases e
  | panic => rw [e2] at e; cases e

theorem separatedLoop_suffix {sep : P B} {p : P A} (hs : LeavesSuffix sep) (h : LeavesSuffix p) (fuel : Nat) :
    LeavesSuffix (separatedLoop sep p fuel) := by
  induction fuel with
  | zero => intro s rest a e; cases e
  | succ fuel ih =>
    intro s rest as e
    simp only [separatedLoop] at e
    cases e' : sep s with
    | error => rw [e'] at e; cases e; exact List.suffix_refl _
    | failure => rw [e'] at e; cases e
    | panic => rw [e'] at e; cases e
    | ok r b =>
      rw [e'] at e
      simp only [] at e
      split at e
      · cases e
      · cases e1 : p r with
        | error => rw [e1] at e; cases e; exact List.suffix_refl _
        | failure => rw [e1] at e; cases e
        | panic => rw [e1] at e; cases e
        | ok r1 c =>
          rw [e1] at e
          simp only [] at e
          cases e2 : separatedLoop sep p fuel r1 with
          | ok r2 as2 =>
            rw [e2] at e; cases e
            exact ((ih _ _ _ e2).trans (h _ _ _ e1)).trans (hs _ _ _ e')
          | error => rw [e2] at e; cases e
          | failure => rw [e2] at e; cases e
          | panic => rw [e2] at e; cases e

theorem separatedList0_suffix {sep : P B} {p : P A} (hs : LeavesSuffix sep) (h : LeavesSuffix p) :
    LeavesSuffix (separatedList0 sep p) := by
  intro s rest as e
  unfold separatedList0 at e
  cases e1 : p s with
  | error => rw [e1] at e; cases e; exact List.suffix_refl _
  | failure => rw [e1] at e; cases e
  | panic => rw [e1] at e; cases e
  | ok r1 c =>
    rw [e1] at e
    simp only [] at e
    cases e2 : separatedLoop sep p (r1.length + 1) r1 with
    | ok r2 as2 => rw [e2] at e; cases e; exact (separatedLoop_suffix hs h _ _ _ _ e2).trans (h _ _ _ e1)
    | error => rw [e2] at e; cases e
    | failure => rw [e2] at e; cases e
    | panic => rw [e2] at e; cases e

theorem alt_value_tag_suffix {ps : List (P A)} (h : ∀ p ∈ ps, ∃ b t, p = value b (tag t)) : LeavesSuffix (alt ps) :=
  alt_suffix fun p hp => by
    obtain ⟨b, t, rfl⟩ := h p hp
    exact value_suffix b (tag_suffix t)

theorem identifier_suffix (E : Env) : LeavesSuffix (identifier E) :=
  recognize_suffix (pair_suffix (alt_suffix (by
    intro p hp
    simp only [List.mem_cons, List.not_mem_nil, or_false] at hp
    rcases hp with rfl | rfl <;> exact satisfy_suffix _)) (many0_suffix (satisfy_suffix _)))

theorem parseColor_suffix : LeavesSuffix parseColor := alt_value_tag_suffix (by
  intro p hp
  simp only [List.mem_cons, List.not_mem_nil, or_false] at hp
  rcases hp with rfl | rfl | rfl | rfl | rfl | rfl | rfl | rfl | rfl <;> exact ⟨_, _, rfl⟩)

theorem parseIntensity_suffix : LeavesSuffix parseIntensity := alt_value_tag_suffix (by
  intro p hp
  simp only [List.mem_cons, List.not_mem_nil, or_false] at hp
  rcases hp with rfl | rfl | rfl <;> exact ⟨_, _, rfl⟩)

theorem parseRestyle_suffix : LeavesSuffix parseRestyle := alt_suffix (by
  intro p hp
  simp only [List.mem_cons, List.not_mem_nil, or_false] at hp
  rcases hp with rfl | rfl | rfl
  · exact map_suffix _ (preceded_suffix (tag_suffix _) (cut_suffix (preceded_suffix (tag_suffix _) parseColor_suffix)))
  · exact map_suffix _ (preceded_suffix (tag_suffix _) (cut_suffix (preceded_suffix (tag_suffix _) parseColor_suffix)))
  · exact map_suffix _ parseIntensity_suffix)

theorem parseStyleDiff_suffix : LeavesSuffix parseStyleDiff :=
  map_suffix _ (separatedList0_suffix (tag_suffix _) (cut_suffix parseRestyle_suffix))

theorem parseAlign_suffix : LeavesSuffix parseAlign := alt_value_tag_suffix (by
  intro p hp
  simp only [List.mem_cons, List.not_mem_nil, or_false] at hp
  rcases hp with rfl | rfl | rfl <;> exact ⟨_, _, rfl⟩)

theorem parseSign_suffix : LeavesSuffix parseSign := alt_value_tag_suffix (by
  intro p hp
  simp only [List.mem_cons, List.not_mem_nil, or_false] at hp
  rcases hp with rfl | rfl <;> exact ⟨_, _, rfl⟩)

theorem parseFormatArgRef_suffix (E : Env) : LeavesSuffix (parseFormatArgRef E) := alt_suffix (by
  intro p hp
  simp only [List.mem_cons, List.not_mem_nil, or_false] at hp
  rcases hp with rfl | rfl
  · exact map_suffix _ (mapRes_suffix _ digit1_suffix)
  · exact map_suffix _ (identifier_suffix E))

theorem parseCount_suffix (E : Env) : LeavesSuffix (parseCount E) := alt_suffix (by
  intro p hp
  simp only [List.mem_cons, List.not_mem_nil, or_false] at hp
  rcases hp with rfl | rfl
  · exact map_suffix _ (terminated_suffix (parseFormatArgRef_suffix E) (tag_suffix _))
  · exact map_suffix _ (mapRes_suffix _ digit1_suffix))

theorem parseFillAlign_suffix : LeavesSuffix parseFillAlign := opt_suffix (alt_suffix (by
  intro p hp
  simp only [List.mem_cons, List.not_mem_nil, or_false] at hp
  rcases hp with rfl | rfl
  · exact pair_suffix (satisfy_suffix _) parseAlign_suffix
  · exact map_suffix _ parseAlign_suffix))

theorem parseTrait_suffix : LeavesSuffix parseTrait := opt_suffix (alt_value_tag_suffix (by
  intro p hp
  simp only [List.mem_cons, List.not_mem_nil, or_false] at hp
  rcases hp with rfl | rfl | rfl | rfl | rfl | rfl | rfl | rfl | rfl | rfl | rfl <;> exact ⟨_, _, rfl⟩))

/-- The continuation of a hand-written parser. -/
theorem bind_suffix {p : P A} (hp : LeavesSuffix p) {f : Str → A → PRes B}
    (hf : ∀ a, LeavesSuffix (fun s => f s a)) : LeavesSuffix (fun s => (p s).bind f) := by
  intro s rest b e
  obtain ⟨r, a, e1, e2⟩ := (bind_ok_iff _ _ _ _).1 e
  exact (hf a _ _ _ e2).trans (hp _ _ _ e1)

theorem ok_suffix (a : A) : LeavesSuffix (fun s => .ok s a) := by
  intro s rest b e
  cases e
  exact List.suffix_refl _

theorem checkFill_suffix (o : Option (Char × Align)) : LeavesSuffix (fun s => checkFill s o) := by
  intro s rest b e
  rcases o with _ | ⟨c, a⟩
  · cases e; exact List.suffix_refl _
  · simp only [checkFill] at e
    split at e
    · cases e
    · cases e; exact List.suffix_refl _

theorem parseFormatSpec_suffix (E : Env) : LeavesSuffix (parseFormatSpec E) :=
  bind_suffix parseFillAlign_suffix fun _ =>
  bind_suffix (checkFill_suffix _) fun _ =>
  bind_suffix (opt_suffix parseSign_suffix) fun _ =>
  bind_suffix (opt_suffix (value_suffix _ (tag_suffix _))) fun _ =>
  bind_suffix (opt_suffix (value_suffix _ (tag_suffix _))) fun _ =>
  bind_suffix (opt_suffix (parseCount_suffix E)) fun _ =>
  bind_suffix (opt_suffix (preceded_suffix (tag_suffix _) (parseCount_suffix E))) fun _ =>
  bind_suffix (opt_suffix (delimited_suffix (tag_suffix _) (cut_suffix parseStyleDiff_suffix) (tag_suffix _))) fun _ =>
  bind_suffix parseTrait_suffix fun _ => ok_suffix _

theorem parseFormatArg_suffix (E : Env) : LeavesSuffix (parseFormatArg E) :=
  bind_suffix (opt_suffix (parseFormatArgRef_suffix E)) fun _ =>
  bind_suffix (opt_suffix (preceded_suffix (tag_suffix _) (parseFormatSpec_suffix E))) fun _ => ok_suffix _

theorem parseLit_suffix : LeavesSuffix parseLit := alt_suffix (by
  intro p hp
  simp only [List.mem_cons, List.not_mem_nil, or_false] at hp
  rcases hp with rfl | rfl | rfl
  · exact map_suffix _ (recognize_suffix (many1_suffix (satisfy_suffix _)))
  · exact value_suffix _ (tag_suffix _)
  · exact value_suffix _ (tag_suffix _))

theorem parseArg_suffix (E : Env) : LeavesSuffix (parseArg E) :=
  map_suffix _ (delimited_suffix (tag_suffix _) (cut_suffix (parseFormatArg_suffix E)) (tag_suffix _))

theorem parsePiece_suffix (E : Env) : LeavesSuffix (parsePiece E) := alt_suffix (by
  intro p hp
  simp only [List.mem_cons, List.not_mem_nil, or_false] at hp
  rcases hp with rfl | rfl
  · exact parseLit_suffix
  · exact parseArg_suffix E)

/-! ### The elements of the loops consume input -/

/-- What the parser leaves is shorter than its input. -/
def Consumes (p : P A) : Prop := ∀ s rest a, p s = .ok rest a → rest.length < s.length

theorem satisfy_consumes (q : Char → Bool) : Consumes (satisfy q) := by
  intro s rest c h
  obtain ⟨rfl, -⟩ := (satisfy_ok_iff _ _ _ _).1 h
  simp

theorem tag_consumes {t : Str} (h : t ≠ []) : Consumes (tag t) := by
  intro s rest a e
  obtain ⟨rfl, -⟩ := (tag_ok_iff _ _ _ _).1 e
  have := List.length_pos_iff.2 h
  simp; omega

theorem map_consumes {p : P A} (f : A → B) (h : Consumes p) : Consumes (map p f) := by
  intro s rest b e
  obtain ⟨a, e, -⟩ := (map_ok_iff _ _ _ _ _).1 e
  exact h _ _ _ e

theorem pair_consumes {p : P A} {q : P B} (hp : Consumes p) (hq : LeavesSuffix q) : Consumes (pair p q) := by
  intro s rest ab e
  unfold pair at e
  obtain ⟨r1, a, e1, e⟩ := (bind_ok_iff _ _ _ _).1 e
  obtain ⟨r2, b, e2, e⟩ := (bind_ok_iff _ _ _ _).1 e
  cases e
  exact Nat.lt_of_le_of_lt (hq.length e2) (hp _ _ _ e1)

theorem many1_consumes {p : P A} (h : Consumes p) (h' : LeavesSuffix p) : Consumes (many1 p) := by
  intro s rest as e
  unfold many1 at e
  obtain ⟨r, a, e1, e⟩ := (bind_ok_iff _ _ _ _).1 e
  cases e2 : many0Loop p (r.length + 1) r with
  | ok r2 as2 => rw [e2] at e; cases e; exact Nat.lt_of_le_of_lt ((many0Loop_suffix h' _).length e2) (h _ _ _ e1)
  | error => rw [e2] at e; cases e
  | failure => rw [e2] at e; cases e
  | panic => rw [e2] at e; cases e

theorem recognize_consumes {p : P A} (h : Consumes p) : Consumes (recognize p) := by
  intro s rest a e
  unfold recognize at e
  cases e' : p s with
  | ok r b => rw [e'] at e; cases e; exact h _ _ _ e'
  | error => rw [e'] at e; cases e
  | failure => rw [e'] at e; cases e
  | panic => rw [e'] at e; cases e

theorem orElse_consumes {p q : P A} (hp : Consumes p) (hq : Consumes q) : Consumes (orElse p q) := by
  intro s rest a e
  unfold orElse at e
  cases e' : p s with
  | error => rw [e'] at e; exact hq _ _ _ e
  | ok r b => rw [e'] at e; cases e; exact hp _ _ _ e'
  | failure => rw [e'] at e; cases e
  | panic => rw [e'] at e; cases e

theorem parsePiece_consumes (E : Env) : Consumes (parsePiece E) :=
  orElse_consumes
    (orElse_consumes (map_consumes _ (recognize_consumes (many1_consumes (satisfy_consumes _) (satisfy_suffix _))))
      (orElse_consumes (map_consumes _ (tag_consumes (by decide))) (map_consumes _ (tag_consumes (by decide)))))
    (map_consumes _ (map_consumes _ (pair_consumes (tag_consumes (by decide))
      (terminated_suffix (cut_suffix (parseFormatArg_suffix E)) (tag_suffix _)))))

end Stylish.Nom
