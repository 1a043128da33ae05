import Verif.Model.Nom
/-
What it means for each nom combinator to succeed, or to fail recoverably.
-/

namespace Stylish.Nom

variable {A B C : Type}

theorem stripPrefix_eq_some (t s rest : Str) : stripPrefix t s = some rest ↔ s = t ++ rest := by
  induction t generalizing s with
  | nil => simp [stripPrefix, eq_comm]
  | cons c cs ih =>
    cases s with
    | nil => simp [stripPrefix]
    | cons d ds =>
      simp only [stripPrefix]
      by_cases h : c = d
      · subst h; simp [ih]
      · simp [h, Ne.symm h]

theorem stripPrefix_append (t rest : Str) : stripPrefix t (t ++ rest) = some rest :=
  (stripPrefix_eq_some _ _ _).2 rfl

theorem tag_append (t rest : Str) : tag t (t ++ rest) = .ok rest t := by
  simp [tag, stripPrefix_append]

theorem tag_ok_iff (t s rest a : Str) : tag t s = .ok rest a ↔ s = t ++ rest ∧ a = t := by
  unfold tag
  split
  · rename_i r h
    rw [stripPrefix_eq_some] at h
    subst h
    simp only [PRes.ok.injEq, List.append_cancel_left_eq]
    constructor
    · rintro ⟨rfl, rfl⟩; simp
    · rintro ⟨rfl, rfl⟩; simp
  · rename_i h
    simp only [reduceCtorEq, false_iff, not_and]
    rintro rfl
    rw [stripPrefix_append] at h
    cases h

theorem tag_error_iff (t s : Str) : tag t s = .error ↔ ¬ t <+: s := by
  unfold tag
  split
  · rename_i r h
    rw [stripPrefix_eq_some] at h
    subst h
    simp
  · rename_i h
    simp only [true_iff]
    rintro ⟨r, rfl⟩
    rw [stripPrefix_append] at h
    cases h

theorem tag_cases (t s : Str) : (∃ rest, s = t ++ rest ∧ tag t s = .ok rest t) ∨ tag t s = .error := by
  unfold tag
  split
  · rename_i r h
    exact Or.inl ⟨r, (stripPrefix_eq_some _ _ _).1 h, rfl⟩
  · exact Or.inr rfl

theorem map_ok_iff (p : P A) (f : A → B) (s rest : Str) (b : B) :
    map p f s = .ok rest b ↔ ∃ a, p s = .ok rest a ∧ f a = b := by
  unfold map
  cases p s <;> simp [and_assoc]

theorem map_error_iff (p : P A) (f : A → B) (s : Str) : map p f s = .error ↔ p s = .error := by
  unfold map
  cases p s <;> simp

theorem value_ok_iff (p : P A) (b b' : B) (s rest : Str) :
    value b p s = .ok rest b' ↔ (∃ a, p s = .ok rest a) ∧ b = b' := by
  unfold value
  rw [map_ok_iff]
  constructor
  · rintro ⟨a, h, rfl⟩; exact ⟨⟨a, h⟩, rfl⟩
  · rintro ⟨⟨a, h⟩, rfl⟩; exact ⟨a, h, rfl⟩

theorem value_error_iff (p : P A) (b : B) (s : Str) : value b p s = .error ↔ p s = .error :=
  map_error_iff _ _ _

theorem mapRes_ok_iff (p : P A) (f : A → Option B) (s rest : Str) (b : B) :
    mapRes p f s = .ok rest b ↔ ∃ a, p s = .ok rest a ∧ f a = some b := by
  unfold mapRes
  cases p s with
  | ok r a =>
    simp only [PRes.ok.injEq, and_assoc]
    rcases h : f a with _ | x <;> simp [h]
  | _ => simp

theorem opt_ok_iff (p : P A) (s rest : Str) (o : Option A) :
    opt p s = .ok rest o ↔ (∃ a, o = some a ∧ p s = .ok rest a) ∨ (o = none ∧ rest = s ∧ p s = .error) := by
  unfold opt
  cases p s with
  | ok r a =>
    simp only [PRes.ok.injEq, reduceCtorEq, and_false, or_false]
    constructor
    · rintro ⟨rfl, rfl⟩; exact ⟨a, rfl, rfl, rfl⟩
    · rintro ⟨_, rfl, rfl, rfl⟩; exact ⟨rfl, rfl⟩
  | error => simp [eq_comm, and_comm]
  | failure => simp
  | panic => simp

theorem opt_some {p : P A} {s rest : Str} {a : A} (h : p s = .ok rest a) : opt p s = .ok rest (some a) := by
  simp [opt, h]

theorem opt_none {p : P A} {s : Str} (h : p s = .error) : opt p s = .ok s none := by
  simp [opt, h]

theorem cut_ok_iff (p : P A) (s rest : Str) (a : A) : cut p s = .ok rest a ↔ p s = .ok rest a := by
  unfold cut
  cases p s <;> simp

theorem cut_ne_error (p : P A) (s : Str) : cut p s ≠ .error := by
  unfold cut
  cases p s <;> simp

theorem cut_ok {p : P A} {s rest : Str} {a : A} (h : p s = .ok rest a) : cut p s = .ok rest a := by
  simp [cut, h]

theorem orElse_ok_iff (p q : P A) (s rest : Str) (a : A) :
    orElse p q s = .ok rest a ↔ p s = .ok rest a ∨ (p s = .error ∧ q s = .ok rest a) := by
  unfold orElse
  cases h : p s <;> simp

theorem orElse_error_iff (p q : P A) (s : Str) :
    orElse p q s = .error ↔ p s = .error ∧ q s = .error := by
  unfold orElse
  cases h : p s <;> simp

@[simp] theorem alt_one (p : P A) (s : Str) : alt [p] s = p s := rfl

@[simp] theorem alt_cons (p q : P A) (ps : List (P A)) (s : Str) :
    alt (p :: q :: ps) s = orElse p (alt (q :: ps)) s := rfl

theorem bind_ok_iff (x : PRes A) (f : Str → A → PRes B) (rest : Str) (b : B) :
    x.bind f = .ok rest b ↔ ∃ s a, x = .ok s a ∧ f s a = .ok rest b := by
  cases x <;> simp [PRes.bind, and_assoc]

theorem bind_error_iff (x : PRes A) (f : Str → A → PRes B) :
    x.bind f = .error ↔ x = .error ∨ ∃ s a, x = .ok s a ∧ f s a = .error := by
  cases x <;> simp [PRes.bind, and_assoc]

theorem pair_ok_iff (p : P A) (q : P B) (s rest : Str) (ab : A × B) :
    pair p q s = .ok rest ab ↔ ∃ s', p s = .ok s' ab.1 ∧ q s' = .ok rest ab.2 := by
  unfold pair
  simp only [bind_ok_iff, PRes.ok.injEq]
  constructor
  · rintro ⟨s1, a, h1, s2, b, h2, rfl, rfl⟩; exact ⟨s1, h1, h2⟩
  · rintro ⟨s1, h1, h2⟩; exact ⟨s1, ab.1, h1, rest, ab.2, h2, rfl, rfl⟩

theorem pair_error_iff (p : P A) (q : P B) (s : Str) :
    pair p q s = .error ↔ p s = .error ∨ ∃ s' a, p s = .ok s' a ∧ q s' = .error := by
  unfold pair
  simp only [bind_error_iff]
  simp

theorem preceded_ok_iff (p : P A) (q : P B) (s rest : Str) (b : B) :
    preceded p q s = .ok rest b ↔ ∃ s' a, p s = .ok s' a ∧ q s' = .ok rest b := by
  unfold preceded
  simp only [map_ok_iff, pair_ok_iff]
  constructor
  · rintro ⟨⟨a, b'⟩, ⟨s', h1, h2⟩, rfl⟩; exact ⟨s', a, h1, h2⟩
  · rintro ⟨s', a, h1, h2⟩; exact ⟨(a, b), ⟨s', h1, h2⟩, rfl⟩

theorem preceded_error_iff (p : P A) (q : P B) (s : Str) :
    preceded p q s = .error ↔ p s = .error ∨ ∃ s' a, p s = .ok s' a ∧ q s' = .error := by
  unfold preceded
  rw [map_error_iff, pair_error_iff]

theorem terminated_ok_iff (p : P A) (q : P B) (s rest : Str) (a : A) :
    terminated p q s = .ok rest a ↔ ∃ s' b, p s = .ok s' a ∧ q s' = .ok rest b := by
  unfold terminated
  simp only [map_ok_iff, pair_ok_iff]
  constructor
  · rintro ⟨⟨a', b⟩, ⟨s', h1, h2⟩, rfl⟩; exact ⟨s', b, h1, h2⟩
  · rintro ⟨s', b, h1, h2⟩; exact ⟨(a, b), ⟨s', h1, h2⟩, rfl⟩

theorem terminated_error_iff (p : P A) (q : P B) (s : Str) :
    terminated p q s = .error ↔ p s = .error ∨ ∃ s' a, p s = .ok s' a ∧ q s' = .error := by
  unfold terminated
  rw [map_error_iff, pair_error_iff]

theorem delimited_ok_iff (p : P A) (q : P B) (r : P C) (s rest : Str) (b : B) :
    delimited p q r s = .ok rest b ↔
      ∃ s1 a s2 c, p s = .ok s1 a ∧ q s1 = .ok s2 b ∧ r s2 = .ok rest c := by
  unfold delimited
  simp only [preceded_ok_iff, terminated_ok_iff]
  constructor
  · rintro ⟨s1, a, h1, s2, c, h2, h3⟩; exact ⟨s1, a, s2, c, h1, h2, h3⟩
  · rintro ⟨s1, a, s2, c, h1, h2, h3⟩; exact ⟨s1, a, h1, s2, c, h2, h3⟩

theorem satisfy_ok_iff (p : Char → Bool) (s rest : Str) (c : Char) :
    satisfy p s = .ok rest c ↔ s = c :: rest ∧ p c = true := by
  cases s with
  | nil => simp [satisfy]
  | cons d ds =>
    simp only [satisfy]
    split
    · simp only [PRes.ok.injEq, List.cons.injEq]
      constructor
      · rintro ⟨rfl, rfl⟩; simp_all
      · rintro ⟨⟨rfl, rfl⟩, _⟩; simp
    · simp only [reduceCtorEq, false_iff]
      rintro ⟨h, hp⟩
      cases h
      contradiction

theorem satisfy_error_iff (p : Char → Bool) (s : Str) :
    satisfy p s = .error ↔ ∀ c rest, s = c :: rest → p c = false := by
  cases s with
  | nil => simp [satisfy]
  | cons d ds =>
    simp only [satisfy, List.cons.injEq]
    split
    · rename_i h
      simp only [reduceCtorEq, false_iff]
      intro k
      have := k d ds ⟨rfl, rfl⟩
      rw [h] at this; cases this
    · rename_i h
      simp only [true_iff]
      rintro c rest ⟨rfl, rfl⟩
      simpa using h

/-- `many0` of single characters takes the longest prefix of such characters. -/
theorem many0Loop_satisfy (p : Char → Bool) (fuel : Nat) (s : Str) (h : s.length < fuel) :
    many0Loop (satisfy p) fuel s = .ok (s.dropWhile p) (s.takeWhile p) := by
  induction fuel generalizing s with
  | zero => omega
  | succ fuel ih =>
    cases s with
    | nil => simp [many0Loop, satisfy]
    | cons c cs =>
      by_cases hc : p c = true
      · have := ih cs (by simpa using h)
        simp [many0Loop, satisfy, hc, this]
      · simp [many0Loop, satisfy, hc]

theorem many0_satisfy (p : Char → Bool) (s : Str) :
    many0 (satisfy p) s = .ok (s.dropWhile p) (s.takeWhile p) :=
  many0Loop_satisfy p _ s (by omega)

theorem length_dropWhile_le (p : Char → Bool) (s : Str) : (s.dropWhile p).length ≤ s.length := by
  have := congrArg List.length (List.takeWhile_append_dropWhile (p := p) (l := s))
  simp only [List.length_append] at this
  omega

/-- `recognize` of a parser that consumed `pre`. -/
theorem recognize_of {p : P A} {pre rest : Str} {a : A} (h : p (pre ++ rest) = .ok rest a) :
    recognize p (pre ++ rest) = .ok rest pre := by
  simp [recognize, h]

theorem dropWhile_of_head {p : Char → Bool} {s : Str} (h : ∀ c cs, s = c :: cs → p c = false) :
    s.dropWhile p = s ∧ s.takeWhile p = [] := by
  cases s with
  | nil => simp
  | cons c cs => simp [h c cs rfl]

theorem takeWhile_append_stop {p : Char → Bool} {ds s : Str} (hd : ∀ d ∈ ds, p d = true)
    (h : ∀ c cs, s = c :: cs → p c = false) :
    (ds ++ s).takeWhile p = ds ∧ (ds ++ s).dropWhile p = s := by
  induction ds with
  | nil => simpa using (dropWhile_of_head h).symm
  | cons d ds ih =>
    have := ih (fun x hx => hd x (by simp [hx]))
    simp [hd d (by simp), this]

theorem all_takeWhile (p : Char → Bool) (s : Str) : ∀ d ∈ s.takeWhile p, p d = true := by
  induction s with
  | nil => simp
  | cons c cs ih =>
    by_cases h : p c = true
    · simp [h]; exact ih
    · simp [h]

theorem head_dropWhile (p : Char → Bool) (s : Str) :
    ∀ c cs, s.dropWhile p = c :: cs → p c = false := by
  induction s with
  | nil => simp
  | cons d ds ih =>
    intro c cs h
    by_cases hd : p d = true
    · simp [hd] at h; exact ih c cs h
    · simp [hd] at h; rw [← h.1]; simpa using hd

end Stylish.Nom
