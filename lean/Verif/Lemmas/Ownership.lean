import Verif.Lemmas.Hygiene
import Verif.Spec.Ownership
/-
The code the macros generate moves none of the caller's variables, and its closures can be called again.
-/

namespace Stylish.Tokens

open Format Rust Spec Spec.Ownership Props

variable {Y : Type}

/-- Nothing is moved, and all is well. -/
def Keeps (Γ : Kinds) (e : RExpr Y) : Prop := moves Γ false e = [] ∧ WellOwned Γ e

def KeepsAll (Γ : Kinds) (es : List (RExpr Y)) : Prop := movesAll Γ es = [] ∧ WellOwnedAll Γ es

theorem apart_nil (l : List (Thing Y)) : Apart [] l := fun _ h => nomatch h

theorem keepsAll_of {Γ : Kinds} {es : List (RExpr Y)} (h : ∀ e ∈ es, Keeps Γ e) : KeepsAll Γ es := by
  induction es with
  | nil => exact ⟨by unfold movesAll; rfl, by unfold WellOwnedAll; trivial⟩
  | cons e es ih =>
    have h1 := h e (by simp)
    have h2 := ih fun e he => h e (by simp [he])
    refine ⟨by unfold movesAll; rw [h1.1, h2.1]; rfl, ?_⟩
    unfold WellOwnedAll
    rw [h1.1]
    exact ⟨h1.2, h2.2, apart_nil _⟩

theorem keeps_path (Γ : Kinds) (p : List String) : Keeps (Y := Y) Γ (path p) := by
  unfold path
  exact ⟨by unfold moves; rfl, by unfold WellOwned; trivial⟩

theorem keeps_lit (Γ : Kinds) (s : Str) : Keeps (Y := Y) Γ (.lit s) :=
  ⟨by unfold moves; rfl, by unfold WellOwned; trivial⟩
theorem keeps_num (Γ : Kinds) (n : Nat) : Keeps (Y := Y) Γ (.num n) :=
  ⟨by unfold moves; rfl, by unfold WellOwned; trivial⟩
theorem keeps_bool (Γ : Kinds) (b : Bool) : Keeps (Y := Y) Γ (.bool b) :=
  ⟨by unfold moves; rfl, by unfold WellOwned; trivial⟩

theorem keeps_ident {Γ : Kinds} {i : Ident} (h : (Γ i).stays = true) : Keeps (Y := Y) Γ (.ident i) :=
  ⟨by unfold moves; simp [h], by unfold WellOwned; trivial⟩

theorem keeps_tuple {Γ : Kinds} {es : List (RExpr Y)} (h : KeepsAll Γ es) : Keeps Γ (.tuple es) :=
  ⟨by unfold moves; exact h.1, by unfold WellOwned; exact h.2⟩

theorem keeps_struct {Γ : Kinds} {p names : List Str} {es : List (RExpr Y)} (h : KeepsAll Γ es) :
    Keeps Γ (.struct p names es) :=
  ⟨by unfold moves; exact h.1, by unfold WellOwned; exact h.2⟩

theorem keeps_call {Γ : Kinds} {p : List String} {es : List (RExpr Y)} (h : KeepsAll Γ es) :
    Keeps Γ (.call (path p) es) := by
  have hp := keeps_path (Y := Y) Γ p
  unfold path at hp ⊢
  refine ⟨?_, ?_⟩
  · unfold moves; rw [hp.1, h.1]; rfl
  · unfold WellOwned; exact ⟨hp.2, h.2⟩

theorem keeps_callIdent {Γ : Kinds} {i : Ident} {es : List (RExpr Y)} (h : KeepsAll Γ es) :
    Keeps Γ (.call (.ident i) es) :=
  ⟨by unfold moves; exact h.1, by unfold WellOwned; exact h.2⟩

/-- A reference moves at most what the value moves. -/
theorem moves_place {Γ : Kinds} (e : RExpr Y) (h : moves Γ false e = []) : moves Γ true e = [] := by
  cases e with
  | ident i => unfold moves; rfl
  | user e => unfold moves; rfl
  | field e i =>
    unfold moves at h ⊢
    cases hk : ((kindOf Γ e).part i).stays
    · rw [hk] at h
      exact moves_place e h
    · rw [hk] at h
      exact h
  | call f args =>
    cases f <;> (unfold moves at h ⊢; exact h)
  | _ => unfold moves at h ⊢; exact h

theorem keeps_ref {Γ : Kinds} {e : RExpr Y} (h : Keeps Γ e) : Keeps Γ (.ref e) :=
  ⟨by unfold moves; exact moves_place e h.1, by unfold WellOwned; exact h.2⟩

/-- To a place nothing happens. -/
theorem keeps_refPlace {Γ : Kinds} {i : Ident} : Keeps (Y := Y) Γ (.ref (.ident i)) :=
  ⟨by unfold moves; unfold moves; rfl, by unfold WellOwned; unfold WellOwned; trivial⟩
theorem keeps_refUser {Γ : Kinds} {e : Y} : Keeps Γ (.ref (.user e)) :=
  ⟨by unfold moves; unfold moves; rfl, by unfold WellOwned; unfold WellOwned; trivial⟩

theorem keeps_quoteOpt {A : Type} (Γ : Kinds) (tok : A → Compile (RExpr Y))
    (h : ∀ a t, tok a = .ok t → Keeps Γ t) (o : Option A) (t : RExpr Y) (ht : quoteOpt tok o = .ok t) : Keeps Γ t := by
  cases o with
  | none => obtain rfl := Except.ok.inj ht; exact keeps_path _ _
  | some a =>
    unfold quoteOpt at ht
    rcases e : tok a with _ | t' <;> simp only [e] at ht
    · cases ht
    · obtain rfl := Except.ok.inj ht
      exact keeps_call (keepsAll_of (by simpa using h a t' e))

theorem keeps_color (Γ : Kinds) (c : Color) (t : RExpr Y) (h : color c = .ok t) : Keeps Γ t := by
  cases c <;> first | (cases h; done) | (obtain rfl := Except.ok.inj h; exact keeps_path _ _)

theorem keeps_intensity (Γ : Kinds) (c : Intensity) (t : RExpr Y) (h : intensity c = .ok t) : Keeps Γ t := by
  cases c <;> (obtain rfl := Except.ok.inj h; exact keeps_path _ _)

/-- At most the variable `diff` is moved. -/
def Only (x : Ident) (Γ : Kinds) (e : RExpr Y) : Prop := without [x] (moves Γ false e) = [] ∧ WellOwned Γ e

theorem only_assign {A : Type} (Γ : Kinds) (field : String) (tok : A → Compile (RExpr Y))
    (h : ∀ a t, tok a = .ok t → Keeps Γ t) (o : Option A) (rest t : RExpr Y) (hr : Only (ours "diff") Γ rest)
    (ht : assign field tok o rest = .ok t) : Only (ours "diff") Γ t := by
  cases o with
  | none => obtain rfl := Except.ok.inj ht; exact hr
  | some a =>
    unfold assign at ht
    rcases e : tok a with _ | t' <;> simp only [e] at ht
    · cases ht
    · obtain rfl := Except.ok.inj ht
      have hs : Keeps Γ (.call (.ident (ours "Some")) [t']) := keeps_callIdent (keepsAll_of (by simpa using h a t' e))
      refine ⟨?_, ?_⟩
      · unfold moves
        rw [hs.1]
        exact hr.1
      · unfold WellOwned
        rw [hs.1]
        exact ⟨hs.2, hr.2, apart_nil _⟩

theorem keeps_styleDiff (Γ : Kinds) (d : StyleDiff) (t : RExpr Y) (h : styleDiff d = .ok t) : Keeps Γ t := by
  obtain ⟨t1, t2, t3, h1, h2, h3, rfl⟩ := styleDiff_ok h
  have hc : Keeps (Y := Y) Γ (.call (path ["StyleDiff", "default"]) []) := keeps_call (keepsAll_of (by simp))
  have m0 : Only (Y := Y) (ours "diff") (Γ.bind (ours "diff") (kindOf Γ (.call (path ["StyleDiff", "default"]) [] : RExpr Y)))
      (.ident (ours "diff")) := by
    refine ⟨?_, by unfold WellOwned; trivial⟩
    unfold moves
    split
    · rfl
    · simp [without]
  have m1 := only_assign _ _ _ (keeps_intensity _) _ _ _ m0 h1
  have m2 := only_assign _ _ _ (keeps_color _) _ _ _ m1 h2
  have m3 := only_assign _ _ _ (keeps_color _) _ _ _ m2 h3
  refine ⟨?_, ?_⟩
  · unfold moves
    rw [hc.1, m3.1]
    rfl
  · unfold WellOwned
    rw [hc.1]
    exact ⟨hc.2, m3.2, apart_nil _⟩

theorem keeps_formatterArgs (Γ : Kinds) (a : MFormatterArgs) (t : RExpr Y) (h : formatterArgs a = .ok t) : Keeps Γ t := by
  unfold formatterArgs at h
  simp only [bind, Except.bind] at h
  have hc : ∀ (c : Count) (t : RExpr Y), count c = .ok t → Keeps Γ t := by
    intro c t h
    cases c with
    | Parameter => cases h
    | Integer v => obtain rfl := Except.ok.inj h; exact keeps_ref (keeps_num _ _)
  split at h
  · cases h
  rename_i t1 e1
  split at h
  · cases h
  rename_i t2 e2
  split at h
  · cases h
  rename_i t3 e3
  split at h
  · cases h
  rename_i t4 e4
  split at h
  · cases h
  rename_i t5 e5
  obtain rfl := Except.ok.inj h
  apply keeps_ref
  apply keeps_struct
  apply keepsAll_of
  have m1 := keeps_quoteOpt Γ align
    (by intro a t h; cases a <;> (obtain rfl := Except.ok.inj h; exact keeps_path _ _)) _ _ e1
  have m2 := keeps_quoteOpt Γ sign
    (by intro a t h; cases a <;> (obtain rfl := Except.ok.inj h; exact keeps_path _ _)) _ _ e2
  have m3 := keeps_quoteOpt Γ count hc _ _ e3
  have m4 := keeps_quoteOpt Γ count hc _ _ e4
  have m5 := keeps_quoteOpt Γ debugHex
    (by intro a t h; cases a <;> (obtain rfl := Except.ok.inj h; exact keeps_path _ _)) _ _ e5
  intro e he
  simp only [List.mem_cons, List.not_mem_nil, or_false] at he
  rcases he with rfl | rfl | rfl | rfl | rfl | rfl | rfl
  · exact m1
  · exact m2
  · exact keeps_bool _ _
  · exact keeps_bool _ _
  · exact m3
  · exact m4
  · exact m5

/-- In the body of the closure: the arguments are references. -/
structure Within (Γ : Kinds) : Prop where
  formatter : Γ (ours "__stylish_formatter") = .reborrowed
  slots : ∀ name ∈ ["__stylish_positional_args", "__stylish_named_args", "__stylish_implicit_named_args"], ∀ i,
    ((Γ (ours name)).part i) = .copied

theorem keeps_part {Γ : Kinds} (x : Ident) (i : Nat) (h : (Γ x).part i = .copied) :
    Keeps (Y := Y) Γ (.field (.ident x) i) ∧ kindOf (Y := Y) Γ (.field (.ident x) i) = .copied := by
  have hk : kindOf (Y := Y) Γ (.ident x) = Γ x := by unfold kindOf; rfl
  refine ⟨⟨?_, ?_⟩, ?_⟩
  · unfold moves
    rw [hk, h]
    unfold moves
    rfl
  · unfold WellOwned; unfold WellOwned; trivial
  · unfold kindOf; rw [hk]; exact h

theorem keeps_slot {Γ : Kinds} (hΓ : Within Γ) (s : Slot) : Keeps (Y := Y) Γ (slot s) ∧ kindOf (Y := Y) Γ (slot s) = .copied := by
  cases s with
  | positional i => exact keeps_part _ i (hΓ.slots _ (by simp) i)
  | named i => exact keeps_part _ i (hΓ.slots _ (by simp) i)
  | implicit i => exact keeps_part _ i (hΓ.slots _ (by simp) i)

theorem keeps_arg {Γ : Kinds} (tr : FormatTrait) (e t : RExpr Y) (he : Keeps Γ e) (hk : kindOf Γ e = .copied)
    (h : arg tr e = .ok t) : Keeps Γ t := by
  have key : ∀ (name p : String), Keeps Γ (.call (path [p]) [.struct [str "StdFmt"] [str "f"] [
      .ref (.matchIdent e (ours "__stylish_arg")
        (.closure (ours "__stylish_formatter") [str "fmt", str "Formatter"]
          (.call (path ["fmt", name, "fmt"])
            [.ident (ours "__stylish_arg"), .ident (ours "__stylish_formatter")])))]]) := by
    intro name p
    apply keeps_call
    apply keepsAll_of
    simp only [List.mem_singleton, forall_eq]
    apply keeps_struct
    apply keepsAll_of
    simp only [List.mem_singleton, forall_eq]
    apply keeps_ref
    have hb : ∀ Γ' : Kinds, (Γ' (ours "__stylish_arg")).stays = true → (Γ' (ours "__stylish_formatter")).stays = true →
        Keeps (Y := Y) Γ' (.call (path ["fmt", name, "fmt"]) [.ident (ours "__stylish_arg"), .ident (ours "__stylish_formatter")]) := by
      intro Γ' h1 h2
      apply keeps_call
      apply keepsAll_of
      simp only [List.mem_cons, List.not_mem_nil, or_false]
      rintro e (rfl | rfl)
      · exact keeps_ident h1
      · exact keeps_ident h2
    have hne : ours "__stylish_arg" ≠ ours "__stylish_formatter" := by decide
    have hcl : Keeps (Y := Y) (Γ.bind (ours "__stylish_arg") (kindOf Γ e))
        (.closure (ours "__stylish_formatter") [str "fmt", str "Formatter"]
          (.call (path ["fmt", name, "fmt"]) [.ident (ours "__stylish_arg"), .ident (ours "__stylish_formatter")])) := by
      refine ⟨?_, ?_⟩
      · unfold moves path
        simp only [mentions, mentionsAll, List.nil_append, List.append_nil, List.cons_append, without, List.filter_cons,
          List.filter_nil]
        simp [movedOf, Kinds.bind, hk, Kind.stays, hne, List.contains_eq_mem]
      · unfold WellOwned
        have := hb ((Γ.bind (ours "__stylish_arg") (kindOf Γ e)).bind (ours "__stylish_formatter") .reborrowed)
          (by simp [Kinds.bind, hk, Kind.stays, hne]) (by simp [Kinds.bind, Kind.stays])
        exact ⟨this.2, by rw [this.1]; rfl⟩
    refine ⟨?_, ?_⟩
    · unfold moves
      rw [he.1, hcl.1]
      rfl
    · unfold WellOwned
      rw [he.1]
      exact ⟨he.2, hcl.2, apart_nil _⟩
  cases tr
  case Stylish => obtain rfl := Except.ok.inj h; exact he
  all_goals
    obtain rfl := Except.ok.inj h
    exact key _ _

theorem keeps_formatter {Γ : Kinds} (hΓ : Within Γ) : Keeps (Y := Y) Γ (.ident (ours "__stylish_formatter")) :=
  keeps_ident (by rw [hΓ.formatter]; rfl)

theorem keeps_piece {Γ : Kinds} (hΓ : Within Γ) (n : Nat) (names : List Str) (st : GenState) (p : Piece)
    (r : RExpr Y × GenState) (h : piece n names st p = .ok r) : Keeps Γ r.1 := by
  cases p with
  | Lit l =>
    obtain rfl := Except.ok.inj h
    apply keeps_call
    apply keepsAll_of
    simp only [List.mem_cons, List.not_mem_nil, or_false]
    rintro e (rfl | rfl)
    · exact keeps_formatter hΓ
    · exact keeps_lit _ _
  | Arg a =>
    unfold piece at h
    simp only [bind, Except.bind] at h
    split at h
    · cases h
    rename_i r1 e1
    split at h
    · cases h
    rename_i t1 h1
    split at h
    · cases h
    rename_i t2 h2
    split at h
    · cases h
    rename_i t3 h3
    obtain rfl := Except.ok.inj h
    apply keeps_call
    apply keepsAll_of
    simp only [List.mem_cons, List.not_mem_nil, or_false]
    rintro e (rfl | rfl)
    · exact keeps_ref (keeps_arg _ _ _ (keeps_slot hΓ _).1 (keeps_slot hΓ _).2 h1)
    · apply keeps_ref
      apply keeps_call
      apply keepsAll_of
      simp only [List.mem_cons, List.not_mem_nil, or_false]
      rintro e (rfl | rfl | rfl)
      · exact keeps_formatter hΓ
      · exact keeps_formatterArgs _ _ _ h2
      · exact keeps_styleDiff _ _ _ h3

theorem keeps_pieces {Γ : Kinds} (hΓ : Within Γ) (n : Nat) (names : List Str) (ps : List Piece) (st : GenState)
    (r : List (RExpr Y) × GenState) (h : pieces n names st ps = .ok r) : Keeps Γ (body r.1) := by
  induction ps generalizing st r with
  | nil =>
    obtain rfl := Except.ok.inj h
    exact keeps_call (keepsAll_of (by
      simp only [List.mem_singleton, forall_eq]
      exact keeps_tuple (keepsAll_of (by simp))))
  | cons p ps ih =>
    unfold pieces at h
    simp only [bind, Except.bind] at h
    split at h
    · cases h
    rename_i r1 h1
    split at h
    · cases h
    rename_i r2 h2
    obtain rfl := Except.ok.inj h
    have k1 := keeps_piece hΓ _ _ _ _ _ h1
    have k2 := ih _ _ h2
    unfold body
    refine ⟨?_, ?_⟩
    · unfold moves; rw [k1.1, k2.1]; rfl
    · unfold WellOwned; rw [k1.1]; exact ⟨k1.2, k2.2, apart_nil _⟩

/-! ## What is mentioned -/

theorem without_nil (xs : List Ident) : without (Y := Y) xs [] = [] := rfl

theorem without_append (xs : List Ident) (a b : List (Thing Y)) : without xs (a ++ b) = without xs a ++ without xs b := by
  unfold without
  rw [List.filter_append]

/-- No variables other than these are mentioned, and no expressions of the caller. -/
def Names (xs : List Ident) (e : RExpr Y) : Prop := without xs (mentions e) = []

def NamesAll (xs : List Ident) (es : List (RExpr Y)) : Prop := without xs (mentionsAll es) = []

theorem namesAll_of {xs : List Ident} {es : List (RExpr Y)} (h : ∀ e ∈ es, Names xs e) : NamesAll xs es := by
  induction es with
  | nil => unfold NamesAll mentionsAll; rfl
  | cons e es ih =>
    unfold NamesAll mentionsAll
    rw [without_append, h e (by simp), ih fun e he => h e (by simp [he])]
    rfl

theorem names_path (xs : List Ident) (p : List String) : Names (Y := Y) xs (path p) := by
  unfold Names path mentions; rfl
theorem names_lit (xs : List Ident) (s : Str) : Names (Y := Y) xs (.lit s) := by unfold Names mentions; rfl
theorem names_num (xs : List Ident) (n : Nat) : Names (Y := Y) xs (.num n) := by unfold Names mentions; rfl
theorem names_bool (xs : List Ident) (b : Bool) : Names (Y := Y) xs (.bool b) := by unfold Names mentions; rfl
theorem names_ident {xs : List Ident} {i : Ident} (h : i ∈ xs) : Names (Y := Y) xs (.ident i) := by
  unfold Names mentions without
  simp [h]
theorem names_ref {xs : List Ident} {e : RExpr Y} (h : Names xs e) : Names xs (.ref e) := by
  unfold Names mentions; exact h
theorem names_tuple {xs : List Ident} {es : List (RExpr Y)} (h : NamesAll xs es) : Names xs (.tuple es) := by
  unfold Names mentions; exact h
theorem names_struct {xs : List Ident} {p names : List Str} {es : List (RExpr Y)} (h : NamesAll xs es) :
    Names xs (.struct p names es) := by
  unfold Names mentions; exact h
theorem names_call {xs : List Ident} {p : List String} {es : List (RExpr Y)} (h : NamesAll xs es) :
    Names xs (.call (path p) es) := by
  unfold Names path mentions
  unfold mentions
  exact h
theorem names_callIdent {xs : List Ident} {i : Ident} {es : List (RExpr Y)} (h : NamesAll xs es) :
    Names xs (.call (.ident i) es) := by
  unfold Names mentions; exact h

theorem without_without (xs : List Ident) (x : Ident) (ts : List (Thing Y)) (h : without (x :: xs) ts = []) :
    without xs (without [x] ts) = [] := by
  unfold without at h ⊢
  rw [List.filter_eq_nil_iff] at h ⊢
  intro t ht
  obtain ⟨h1, h2⟩ := List.mem_filter.1 ht
  have := h t h1
  cases t with
  | expr e => exact absurd rfl this
  | var i =>
    simp only [Bool.not_eq_true', List.contains_eq_mem, List.mem_cons, decide_eq_false_iff_not,
      List.not_mem_nil, or_false] at h2 this ⊢
    intro hi
    exact this fun h => h.elim h2 hi

theorem names_let {xs : List Ident} {x : Ident} {e rest : RExpr Y} (he : Names xs e) (hr : Names (x :: xs) rest) :
    Names xs (.letMut x e rest) := by
  unfold Names mentions
  rw [without_append, he, without_without xs x _ hr]
  rfl
theorem names_match {xs : List Ident} {x : Ident} {e rest : RExpr Y} (he : Names xs e) (hr : Names (x :: xs) rest) :
    Names xs (.matchIdent e x rest) := by
  unfold Names mentions
  rw [without_append, he, without_without xs x _ hr]
  rfl
theorem names_closure {xs : List Ident} {x : Ident} {ty : List Str} {b : RExpr Y} (hr : Names (x :: xs) b) :
    Names xs (.closure x ty b) := by
  unfold Names mentions
  exact without_without xs x _ hr

theorem names_quoteOpt {A : Type} (xs : List Ident) (tok : A → Compile (RExpr Y))
    (h : ∀ a t, tok a = .ok t → Names xs t) (o : Option A) (t : RExpr Y) (ht : quoteOpt tok o = .ok t) : Names xs t := by
  cases o with
  | none => obtain rfl := Except.ok.inj ht; exact names_path _ _
  | some a =>
    unfold quoteOpt at ht
    rcases e : tok a with _ | t' <;> simp only [e] at ht
    · cases ht
    · obtain rfl := Except.ok.inj ht
      exact names_call (namesAll_of (by simpa using h a t' e))

theorem names_color (xs : List Ident) (c : Color) (t : RExpr Y) (h : color c = .ok t) : Names xs t := by
  cases c <;> first | (cases h; done) | (obtain rfl := Except.ok.inj h; exact names_path _ _)

theorem names_intensity (xs : List Ident) (c : Intensity) (t : RExpr Y) (h : intensity c = .ok t) : Names xs t := by
  cases c <;> (obtain rfl := Except.ok.inj h; exact names_path _ _)

theorem names_assign {A : Type} (xs : List Ident) (hx : ours "diff" ∈ xs) (field : String) (tok : A → Compile (RExpr Y))
    (h : ∀ a t, tok a = .ok t → Names xs t) (o : Option A) (rest t : RExpr Y) (hr : Names xs rest)
    (ht : assign field tok o rest = .ok t) : Names xs t := by
  cases o with
  | none => obtain rfl := Except.ok.inj ht; exact hr
  | some a =>
    unfold assign at ht
    rcases e : tok a with _ | t' <;> simp only [e] at ht
    · cases ht
    · obtain rfl := Except.ok.inj ht
      have hs : Names xs (.call (.ident (ours "Some")) [t']) := names_callIdent (namesAll_of (by simpa using h a t' e))
      have hd := names_ident (Y := Y) hx
      unfold Names mentions at hd ⊢
      rw [without_append, hs, show (Thing.var (ours "diff") :: mentions rest) = [.var (ours "diff")] ++ mentions rest from rfl,
        without_append, hd, hr]
      rfl

theorem names_styleDiff (xs : List Ident) (d : StyleDiff) (t : RExpr Y) (h : styleDiff d = .ok t) : Names xs t := by
  obtain ⟨t1, t2, t3, h1, h2, h3, rfl⟩ := styleDiff_ok h
  have hx : ours "diff" ∈ ours "diff" :: xs := by simp
  have m1 := names_assign _ hx _ _ (names_intensity _) _ _ _ (names_ident hx) h1
  have m2 := names_assign _ hx _ _ (names_color _) _ _ _ m1 h2
  have m3 := names_assign _ hx _ _ (names_color _) _ _ _ m2 h3
  exact names_let (names_call (namesAll_of (by simp))) m3

theorem names_formatterArgs (xs : List Ident) (a : MFormatterArgs) (t : RExpr Y) (h : formatterArgs a = .ok t) : Names xs t := by
  unfold formatterArgs at h
  simp only [bind, Except.bind] at h
  have hc : ∀ (c : Count) (t : RExpr Y), count c = .ok t → Names xs t := by
    intro c t h
    cases c with
    | Parameter => cases h
    | Integer v => obtain rfl := Except.ok.inj h; exact names_ref (names_num _ _)
  split at h
  · cases h
  rename_i t1 e1
  split at h
  · cases h
  rename_i t2 e2
  split at h
  · cases h
  rename_i t3 e3
  split at h
  · cases h
  rename_i t4 e4
  split at h
  · cases h
  rename_i t5 e5
  obtain rfl := Except.ok.inj h
  apply names_ref
  apply names_struct
  apply namesAll_of
  have m1 := names_quoteOpt xs align
    (by intro a t h; cases a <;> (obtain rfl := Except.ok.inj h; exact names_path _ _)) _ _ e1
  have m2 := names_quoteOpt xs sign
    (by intro a t h; cases a <;> (obtain rfl := Except.ok.inj h; exact names_path _ _)) _ _ e2
  have m3 := names_quoteOpt xs count hc _ _ e3
  have m4 := names_quoteOpt xs count hc _ _ e4
  have m5 := names_quoteOpt xs debugHex
    (by intro a t h; cases a <;> (obtain rfl := Except.ok.inj h; exact names_path _ _)) _ _ e5
  intro e he
  simp only [List.mem_cons, List.not_mem_nil, or_false] at he
  rcases he with rfl | rfl | rfl | rfl | rfl | rfl | rfl
  · exact m1
  · exact m2
  · exact names_bool _ _
  · exact names_bool _ _
  · exact m3
  · exact m4
  · exact m5

/-- The names of the tuples of arguments. -/
def tuples : List Ident :=
  [ours "__stylish_positional_args", ours "__stylish_named_args", ours "__stylish_implicit_named_args"]

theorem names_slot (s : Slot) (xs : List Ident) (h : ∀ x ∈ tuples, x ∈ xs) : Names (Y := Y) xs (slot s) := by
  cases s with
  | _ i =>
    unfold slot Names mentions
    exact names_ident (h _ (by simp [tuples]))

theorem names_arg (xs : List Ident) (tr : FormatTrait) (e t : RExpr Y) (he : Names xs e) (h : arg tr e = .ok t) : Names xs t := by
  have key : ∀ (name p : String), Names xs (.call (path [p]) [.struct [str "StdFmt"] [str "f"] [
      .ref (.matchIdent e (ours "__stylish_arg")
        (.closure (ours "__stylish_formatter") [str "fmt", str "Formatter"]
          (.call (path ["fmt", name, "fmt"])
            [.ident (ours "__stylish_arg"), .ident (ours "__stylish_formatter")])))]]) := by
    intro name p
    apply names_call
    apply namesAll_of
    simp only [List.mem_singleton, forall_eq]
    apply names_struct
    apply namesAll_of
    simp only [List.mem_singleton, forall_eq]
    apply names_ref
    apply names_match he
    apply names_closure
    apply names_call
    apply namesAll_of
    simp only [List.mem_cons, List.not_mem_nil, or_false]
    rintro e (rfl | rfl)
    · exact names_ident (by simp)
    · exact names_ident (by simp)
  cases tr
  case Stylish => obtain rfl := Except.ok.inj h; exact he
  all_goals
    obtain rfl := Except.ok.inj h
    exact key _ _

theorem names_piece (n : Nat) (names : List Str) (st : GenState) (p : Piece)
    (r : RExpr Y × GenState) (h : piece n names st p = .ok r) : Names (ours "__stylish_formatter" :: tuples) r.1 := by
  have hf : Names (Y := Y) (ours "__stylish_formatter" :: tuples) (.ident (ours "__stylish_formatter")) := names_ident (by simp)
  cases p with
  | Lit l =>
    obtain rfl := Except.ok.inj h
    apply names_call
    apply namesAll_of
    simp only [List.mem_cons, List.not_mem_nil, or_false]
    rintro e (rfl | rfl)
    · exact hf
    · exact names_lit _ _
  | Arg a =>
    unfold piece at h
    simp only [bind, Except.bind] at h
    split at h
    · cases h
    rename_i r1 e1
    split at h
    · cases h
    rename_i t1 h1
    split at h
    · cases h
    rename_i t2 h2
    split at h
    · cases h
    rename_i t3 h3
    obtain rfl := Except.ok.inj h
    apply names_call
    apply namesAll_of
    simp only [List.mem_cons, List.not_mem_nil, or_false]
    rintro e (rfl | rfl)
    · exact names_ref (names_arg _ _ _ _ (names_slot _ _ (by intro x hx; simp [hx])) h1)
    · apply names_ref
      apply names_call
      apply namesAll_of
      simp only [List.mem_cons, List.not_mem_nil, or_false]
      rintro e (rfl | rfl | rfl)
      · exact hf
      · exact names_formatterArgs _ _ _ h2
      · exact names_styleDiff _ _ _ h3

theorem names_pieces (n : Nat) (names : List Str) (ps : List Piece) (st : GenState)
    (r : List (RExpr Y) × GenState) (h : pieces n names st ps = .ok r) :
    Names (ours "__stylish_formatter" :: tuples) (body r.1) := by
  induction ps generalizing st r with
  | nil =>
    obtain rfl := Except.ok.inj h
    exact names_call (namesAll_of (by
      simp only [List.mem_singleton, forall_eq]
      exact names_tuple (namesAll_of (by simp))))
  | cons p ps ih =>
    unfold pieces at h
    simp only [bind, Except.bind] at h
    split at h
    · cases h
    rename_i r1 h1
    split at h
    · cases h
    rename_i r2 h2
    obtain rfl := Except.ok.inj h
    unfold body Names mentions
    rw [without_append, names_piece _ _ _ _ _ h1, ih _ _ h2]
    rfl

/-! ## All of the code -/

theorem kindsOf_refs {A : Type} (Γ : Kinds) (l : List A) (f : A → RExpr Y) :
    kindsOf Γ (l.map fun a => .ref (f a)) = l.map fun _ => .copied := by
  induction l with
  | nil => unfold kindsOf; rfl
  | cons a l ih => simp only [List.map_cons]; unfold kindsOf; rw [ih]; unfold kindOf; rfl

theorem part_copied {A : Type} (l : List A) (i : Nat) : (Kind.tuple (l.map fun _ => .copied)).part i = .copied := by
  show (l.map fun _ => Kind.copied).getD i .copied = .copied
  rw [List.getD_eq_getElem?_getD, List.getElem?_map]
  cases l[i]? <;> rfl

theorem keeps_impl (E : Env) (Γ : Kinds) (input : ArgsInput Y) (t : RExpr Y) (h : formatArgsImpl E input = .ok t) :
    Keeps Γ t := by
  unfold formatArgsImpl at h
  simp only [bind, Except.bind] at h
  split at h
  · cases h
  split at h
  · cases h
  rename_i r hr
  split at h
  · cases h
  obtain rfl := Except.ok.inj h
  apply keeps_struct
  apply keepsAll_of
  simp only [List.mem_singleton, forall_eq]
  apply keeps_ref
  have hscrut : Keeps (Y := Y) Γ (.tuple [.tuple (input.positionalArgs.map fun e => .ref (.user e)),
      .tuple (input.namedArgs.map fun e => .ref (.user e.2)),
      .tuple (r.2.implicit.map fun name => .ref (.ident ⟨name, .callers⟩))]) := by
    apply keeps_tuple
    apply keepsAll_of
    simp only [List.mem_cons, List.not_mem_nil, or_false]
    rintro e (rfl | rfl | rfl) <;> apply keeps_tuple <;> apply keepsAll_of <;> intro e he <;>
      obtain ⟨a, -, rfl⟩ := List.mem_map.1 he
    · exact keeps_refUser
    · exact keeps_refUser
    · exact keeps_refPlace
  have hΓ : ∀ k, k = kindOf (Y := Y) Γ (.tuple [.tuple (input.positionalArgs.map fun e => .ref (.user e)),
      .tuple (input.namedArgs.map fun e => .ref (.user e.2)),
      .tuple (r.2.implicit.map fun name => .ref (.ident ⟨name, .callers⟩))]) →
      Within ((Γ.bindAll k 0 tuples).bind (ours "__stylish_formatter") .reborrowed) := by
    rintro k rfl
    unfold kindOf kindsOf kindsOf kindsOf kindsOf kindOf
    rw [kindsOf_refs, kindsOf_refs, kindsOf_refs]
    refine ⟨by simp [Kinds.bind], ?_⟩
    intro name hname i
    simp only [List.mem_cons, List.not_mem_nil, or_false] at hname
    rcases hname with rfl | rfl | rfl
    · exact part_copied _ i
    · exact part_copied _ i
    · exact part_copied _ i
  have hb := keeps_pieces (hΓ _ rfl) _ _ _ _ _ hr
  have hn := names_pieces _ _ _ _ _ hr
  refine ⟨?_, ?_⟩
  · unfold moves
    rw [hscrut.1]
    unfold moves
    have hm := without_without tuples (ours "__stylish_formatter") _ hn
    show [] ++ without tuples (movedOf _ _) = []
    unfold without movedOf at *
    rw [List.filter_eq_nil_iff] at hm
    rw [List.nil_append, List.filter_eq_nil_iff]
    exact fun t ht => hm t (List.mem_filter.1 ht).1
  · unfold WellOwned
    rw [hscrut.1]
    refine ⟨hscrut.2, ?_, apart_nil _⟩
    unfold WellOwned
    refine ⟨hb.2, ?_⟩
    have := hb.1
    unfold tuples at this
    rw [this]
    rfl

end Stylish.Tokens
