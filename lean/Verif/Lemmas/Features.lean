import Verif.Spec.Features
/-
Checking the feature tables: a decision procedure that works with the facts known, and its soundness for all builds.
-/

namespace Stylish.Cargo

set_option maxRecDepth 1000000

/-- Once through the rules. -/
def step (fs : List Fact) : List Fact :=
  rules.foldl (fun acc r => if r.hyps.all acc.contains && !acc.contains r.concl then r.concl :: acc else acc) fs

def closure : Nat → List Fact → List Fact
  | 0, fs => fs
  | n + 1, fs => closure n (step fs)

theorem step_sound {B : Build} (hB : B.Closed) (fs : List Fact) (h : ∀ f ∈ fs, B f) : ∀ f ∈ step fs, B f := by
  unfold step
  have : ∀ (rs : List Rule), (∀ r ∈ rs, r ∈ rules) → ∀ (acc : List Fact), (∀ f ∈ acc, B f) →
      ∀ f ∈ rs.foldl (fun acc r => if r.hyps.all acc.contains && !acc.contains r.concl then r.concl :: acc else acc) acc,
        B f := by
    intro rs
    induction rs with
    | nil => intro _ acc ha; simpa using ha
    | cons r rs ih =>
      intro hr acc ha
      rw [List.foldl_cons]
      refine ih (fun r' hr' => hr r' (List.mem_cons_of_mem _ hr')) _ ?_
      split
      · rename_i hc
        intro f hf
        rcases List.mem_cons.1 hf with rfl | hf
        · refine hB r (hr r List.mem_cons_self) (fun h hh => ha h ?_)
          have := (List.all_eq_true.1 ((Bool.and_eq_true _ _).mp hc).1) h hh
          simpa using this
        · exact ha f hf
      · exact ha
  exact this rules (fun r hr => hr) fs h

theorem closure_sound {B : Build} (hB : B.Closed) (n : Nat) (fs : List Fact) (h : ∀ f ∈ fs, B f) :
    ∀ f ∈ closure n fs, B f := by
  induction n generalizing fs with
  | zero => exact h
  | succ n ih => exact ih _ (step_sound hB fs h)

/-- The condition holds, as far as is known: `pos` is true, `neg` is false. -/
def Lit.known (pos neg : List Fact) (c : Crate) : Lit → Bool
  | .feature f => pos.contains (.on c f)
  | .notFeature f => neg.contains (.on c f)
  | .flag => pos.contains .flag
  | .notFlag => neg.contains .flag

theorem known_sound {B : Build} {pos neg : List Fact} (hp : ∀ f ∈ pos, B f) (hn : ∀ f ∈ neg, ¬ B f) (c : Crate) (l : Lit)
    (h : l.known pos neg c = true) : l.holds B c := by
  cases l <;> simp only [Lit.known, List.contains_eq_mem, decide_eq_true_eq] at h
  · exact hp _ h
  · exact hn _ h
  · exact hp _ h
  · exact hn _ h

/-- Is the crate a dependency, as far as is known? -/
def reaches (pos : List Fact) (frm : Option Crate) (d : Crate) : Bool :=
  match frm with
  | none => true
  | some c => decide (c = d) || pos.contains (.uses c d)

theorem reaches_sound {B : Build} {pos : List Fact} (hp : ∀ f ∈ pos, B f) (frm : Option Crate) (d : Crate)
    (h : reaches pos frm d = true) : ∀ c, frm = some c → c = d ∨ B (.uses c d) := by
  rintro c rfl
  simp only [reaches, Bool.or_eq_true, decide_eq_true_eq, List.contains_eq_mem] at h
  exact h.imp id (hp _)

/-- Can the name be used, as far as is known? -/
def usable : Nat → List Fact → List Fact → Option Crate → Ref → Bool
  | 0, _, _, _, _ => false
  | n + 1, pos, neg, frm, r =>
    ((source r.crate).defs.any fun d =>
      decide (d.path = r.path) && decide (d.ns = r.ns) && d.cfg.all (Lit.known pos neg r.crate) &&
      (decide (frm = some r.crate) || d.vis) && reaches pos frm r.crate &&
      d.expands.all (usable n pos neg (if d.vis then none else frm))) ||
    ((source r.crate).uses.any fun u =>
      decide (u.path = r.path) && u.cfg.all (Lit.known pos neg r.crate) &&
      (decide (frm = some r.crate) || u.vis) && reaches pos frm r.crate &&
      usable n pos neg (some r.crate) ⟨u.crate, u.target, r.ns⟩)

theorem usable_sound {B : Build} {pos neg : List Fact} (hp : ∀ f ∈ pos, B f) (hn : ∀ f ∈ neg, ¬ B f) (n : Nat)
    (frm : Option Crate) (r : Ref) (h : usable n pos neg frm r = true) : Usable B frm r := by
  induction n generalizing frm r with
  | zero => simp [usable] at h
  | succ n ih =>
    simp only [usable, Bool.or_eq_true, List.any_eq_true, Bool.and_eq_true, decide_eq_true_eq, List.all_eq_true] at h
    rcases h with ⟨d, hd, ⟨⟨⟨⟨h1, h2⟩, h3⟩, h4⟩, h5⟩, h6⟩ | ⟨u, hu, ⟨⟨⟨h1, h3⟩, h4⟩, h5⟩, h6⟩
    · exact .item frm r d hd h1 h2 (fun l hl => known_sound hp hn _ l (h3 l hl)) h4 (reaches_sound hp frm _ h5)
        (fun e he => ih _ e (h6 e he))
    · exact .reexport frm r u hu h1 (fun l hl => known_sound hp hn _ l (h3 l hl)) h4 (reaches_sound hp frm _ h5)
        (ih _ _ h6)

/-- The facts a `cfg` comes to. -/
def cfgFacts (c : Crate) (cfg : List Lit) : List Fact :=
  cfg.filterMap fun | .feature f => some (.on c f) | _ => none

theorem cfgFacts_sound {B : Build} {c : Crate} {cfg : List Lit} (h : Holds B c cfg) : ∀ f ∈ cfgFacts c cfg, B f := by
  intro f hf
  obtain ⟨l, hl, e⟩ := List.mem_filterMap.1 hf
  have := h l hl
  cases l <;> simp at e
  subst e
  exact this

/-- What is known about a build of `c` in which the `cfg` holds. -/
def knownFacts (flag : Bool) (c : Crate) (cfg : List Lit) : List Fact :=
  closure 3 ((if flag then [.flag] else []) ++ .built c :: cfgFacts c cfg)

def absentFacts (flag : Bool) : List Fact := if flag then [] else [.flag]

open Classical in
theorem usable_when {B : Build} (hB : B.Closed) (c : Crate) (hc : B (.built c)) (cfg : List Lit) (hh : Holds B c cfg)
    (frm : Option Crate) (r : Ref)
    (h : ∀ flag, usable 10 (knownFacts flag c cfg) (absentFacts flag) frm r = true) : Usable B frm r := by
  by_cases hf : B .flag
  · refine usable_sound ?_ ?_ 10 frm r (h true)
    · refine closure_sound hB _ _ ?_
      intro f hm
      simp only [if_true, List.cons_append, List.nil_append, List.mem_cons] at hm
      rcases hm with rfl | rfl | hm
      · exact hf
      · exact hc
      · exact cfgFacts_sound hh f hm
    · simp [absentFacts]
  · refine usable_sound ?_ ?_ 10 frm r (h false)
    · refine closure_sound hB _ _ ?_
      intro f hm
      simp only [Bool.false_eq_true, if_false, List.nil_append, List.mem_cons] at hm
      rcases hm with rfl | hm
      · exact hc
      · exact cfgFacts_sound hh f hm
    · intro f hm
      simp only [absentFacts, Bool.false_eq_true, if_false, List.mem_singleton] at hm
      subst hm
      exact hf

theorem Crate.mem_all (c : Crate) : c ∈ Crate.all := by cases c <;> decide
theorem Ns.mem_all (n : Ns) : n ∈ Ns.all := by cases n <;> decide
theorem Feature.mem_all (f : Feature) : f ∈ Feature.all := by cases f <;> decide

theorem code_check : (Crate.all.all fun c => (source c).code.all fun k => k.refs.all fun r =>
    [true, false].all fun flag => usable 10 (knownFacts flag c k.cfg) (absentFacts flag) (some c) r) = true := by
  decide +kernel

theorem uses_check : (Crate.all.all fun c => (source c).uses.all fun u => Ns.all.any fun ns =>
    [true, false].all fun flag => usable 10 (knownFacts flag c u.cfg) (absentFacts flag) (some c) ⟨u.crate, u.target, ns⟩)
      = true := by
  decide +kernel

/-! ### What can be said of a name that can be used -/

/-- The conditions under which a name is there at all, as alternatives; deeper than `n` re-exports nothing is claimed. -/
def routes : Nat → Bool → Ref → List (List (Crate × Lit))
  | 0, _, _ => [[]]
  | n + 1, out, r =>
    ((source r.crate).defs.filter fun d => decide (d.path = r.path) && decide (d.ns = r.ns) && (!out || d.vis)).map
      (fun d => d.cfg.map (r.crate, ·)) ++
    ((source r.crate).uses.filter fun u => decide (u.path = r.path) && (!out || u.vis)).flatMap
      (fun u => (routes n (decide (u.crate ≠ r.crate)) ⟨u.crate, u.target, r.ns⟩).map (u.cfg.map (r.crate, ·) ++ ·))

/-- Mentioned from another crate. -/
def foreign (frm : Option Crate) (c : Crate) : Bool := decide (frm ≠ some c)

theorem routes_complete {B : Build} {frm : Option Crate} {r : Ref} (h : Usable B frm r) (n : Nat) :
    ∃ conj ∈ routes n (foreign frm r.crate) r, ∀ p ∈ conj, p.2.holds B p.1 := by
  induction h generalizing n with
  | item frm r d hd hp hn hc hv hu hx ih =>
    cases n with
    | zero => exact ⟨[], by simp [routes], by simp⟩
    | succ n =>
      refine ⟨d.cfg.map (r.crate, ·), ?_, ?_⟩
      · unfold routes
        refine List.mem_append_left _ (List.mem_map.2 ⟨d, List.mem_filter.2 ⟨hd, ?_⟩, rfl⟩)
        rcases hv with rfl | hv
        · simp [hp, hn, foreign]
        · simp [hp, hn, hv]
      · intro p hp'
        obtain ⟨l, hl, rfl⟩ := List.mem_map.1 hp'
        exact hc l hl
  | reexport frm r u hd hp hc hv hu ht ih =>
    cases n with
    | zero => exact ⟨[], by simp [routes], by simp⟩
    | succ n =>
      obtain ⟨conj, h1, h2⟩ := ih n
      have hf : foreign (some r.crate) u.crate = decide (u.crate ≠ r.crate) := by
        unfold foreign
        by_cases he : u.crate = r.crate
        · simp [he]
        · have : ¬ r.crate = u.crate := fun h => he h.symm
          simp [he, this]
      refine ⟨u.cfg.map (r.crate, ·) ++ conj, ?_, ?_⟩
      · unfold routes
        refine List.mem_append_right _ (List.mem_flatMap.2 ⟨u, List.mem_filter.2 ⟨hd, ?_⟩, List.mem_map.2 ⟨conj, ?_, rfl⟩⟩)
        · rcases hv with rfl | hv
          · simp [hp, foreign]
          · simp [hp, hv]
        · simp only at h1
          rwa [hf] at h1
      · intro p hp'
        rcases List.mem_append.1 hp' with hp' | hp'
        · obtain ⟨l, hl, rfl⟩ := List.mem_map.1 hp'
          exact hc l hl
        · exact h2 p hp'

/-- The conditions exclude each other. -/
def excludes (a b : List (Crate × Lit)) : Bool :=
  a.any fun p => match p.2 with
    | .feature f => b.contains (p.1, .notFeature f)
    | .notFeature f => b.contains (p.1, .feature f)
    | .flag => b.contains (p.1, .notFlag)
    | .notFlag => b.contains (p.1, .flag)

theorem excludes_sound {B : Build} {a b : List (Crate × Lit)} (h : excludes a b = true) (ha : ∀ p ∈ a, p.2.holds B p.1)
    (hb : ∀ p ∈ b, p.2.holds B p.1) : False := by
  obtain ⟨p, hp, h⟩ := List.any_eq_true.1 h
  have h1 := ha p hp
  obtain ⟨c, l⟩ := p
  cases l <;> simp only [List.contains_eq_mem, decide_eq_true_eq] at h <;> have h2 := hb _ h <;>
    simp only [Lit.holds] at h1 h2
  · exact h2 h1
  · exact h1 h2
  · exact h2 h1
  · exact h1 h2

/-- The ways in which an entry can provide something in a namespace. -/
def Entry.ways (c : Crate) (ns : Ns) : Entry → List (List (Crate × Lit))
  | .def d => if d.ns = ns then [d.cfg.map (c, ·)] else []
  | .use u => (routes 5 (decide (u.crate ≠ c)) ⟨u.crate, u.target, ns⟩).map (u.cfg.map (c, ·) ++ ·)

def Entry.path : Entry → List Id
  | .def d => d.path
  | .use u => u.path

theorem Entry.ways_complete {B : Build} {c : Crate} {path : List Id} {ns : Ns} {e : Entry} (h : e.Provides B c path ns) :
    e.path = path ∧ ∃ conj ∈ e.ways c ns, ∀ p ∈ conj, p.2.holds B p.1 := by
  cases e with
  | «def» d =>
    obtain ⟨h1, h2, h3⟩ := h
    refine ⟨h1, d.cfg.map (c, ·), by simp [Entry.ways, h2], ?_⟩
    intro p hp
    obtain ⟨l, hl, rfl⟩ := List.mem_map.1 hp
    exact h3 l hl
  | use u =>
    obtain ⟨h1, h2, h3⟩ := h
    obtain ⟨conj, h4, h5⟩ := routes_complete h3 5
    have hf : foreign (some c) u.crate = decide (u.crate ≠ c) := by
      unfold foreign
      by_cases he : u.crate = c
      · simp [he]
      · have : ¬ c = u.crate := fun h => he h.symm
        simp [he, this]
    simp only at h4
    rw [hf] at h4
    refine ⟨h1, u.cfg.map (c, ·) ++ conj, List.mem_map.2 ⟨conj, h4, rfl⟩, ?_⟩
    intro p hp
    rcases List.mem_append.1 hp with hp | hp
    · obtain ⟨l, hl, rfl⟩ := List.mem_map.1 hp
      exact h2 l hl
    · exact h5 p hp

theorem unique_check : (Crate.all.all fun c => (entries c).all fun e => (entries c).all fun e' =>
    decide (e = e') || decide (e.path ≠ e'.path) || Ns.all.all fun ns => (e.ways c ns).all fun a => (e'.ways c ns).all fun b =>
      excludes a b) = true := by
  decide +kernel

/-! ### The build of `stylish` alone -/

/-- The features that have to be chosen for a fact, if it can be at all. -/
def meaning (shared : Bool) : Fact → Option (List Feature)
  | .built c => match c with
    | .stylish | .core | .style => some []
    | .macros | .styleHost | .withBuiltin => some [.macros]
    | .ansi => some [.ansi]
    | .html | .askama => some [.html]
    | .plain => some [.plain]
  | .on c f => match c with
    | .stylish => some [f]
    | .core => if f ∈ [.std, .alloc, .macros] then some [f] else none
    | .ansi => if f ∈ [.std, .alloc, .macros] then some [.ansi, f] else none
    | .html => if f ∈ [.std, .alloc, .macros] then some [.html, f] else none
    | .plain => if f ∈ [.std, .alloc, .macros] then some [.plain, f] else none
    | .styleHost => if f = .alloc then some [.macros] else none
    | .style => if f = .alloc ∧ shared then some [.macros] else none
    | _ => none
  | .uses c d => match c, d with
    | .stylish, .core | .core, .style => some []
    | .stylish, .macros | .core, .macros | .core, .withBuiltin | .macros, .styleHost => some [.macros]
    | .stylish, .ansi | .ansi, .core => some [.ansi]
    | .stylish, .html | .html, .core | .html, .askama => some [.html]
    | .stylish, .plain | .plain, .core => some [.plain]
    | _, _ => none
  | .flag => none

/-- The features that come with these. -/
def saturate (fs : List Feature) : List Feature :=
  Feature.all.filter fun f => fs.contains f || match f with
    | .std => fs.contains .default
    | .alloc => fs.contains .std || fs.contains .default
    | .macros => fs.contains .default
    | _ => false

theorem saturate_sound {S : Feature → Prop} {fs : List Feature} (h : ∀ f ∈ fs, Chosen S f) : ∀ f ∈ saturate fs, Chosen S f := by
  intro f hf
  simp only [saturate, List.mem_filter, Bool.or_eq_true, List.contains_eq_mem, decide_eq_true_eq] at hf
  rcases hf with ⟨-, hf | hf⟩
  · exact h f hf
  · cases f <;> simp at hf
    · exact Or.inr (h _ hf)
    · rcases hf with hf | hf
      · rcases h _ hf with h | h
        · exact Or.inr (Or.inl h)
        · exact Or.inr (Or.inr h)
      · exact Or.inr (Or.inr (h _ hf))
    · exact Or.inr (h _ hf)

/-- What the build is, said outright. -/
def outright (shared flag : Bool) (S : Feature → Prop) (x : Fact) : Prop :=
  (x = .flag ∧ flag = true) ∨ ∃ m, meaning shared x = some m ∧ ∀ f ∈ m, Chosen S f

/-- A rule of Cargo is kept by `meaning`. -/
def kept (shared : Bool) (r : Rule) : Bool :=
  r.hyps.all (· ≠ .flag) &&
  ((r.hyps.any fun h => (meaning shared h).isNone) ||
   match meaning shared r.concl with
   | none => false
   | some m => m.all (saturate (r.hyps.flatMap fun h => (meaning shared h).getD [])).contains)

theorem kept_sound {shared flag : Bool} {S : Feature → Prop} {r : Rule} (h : kept shared r = true)
    (hh : ∀ x ∈ r.hyps, outright shared flag S x) : outright shared flag S r.concl := by
  unfold kept at h
  rw [Bool.and_eq_true] at h
  obtain ⟨h1, h2⟩ := h
  have hm : ∀ x ∈ r.hyps, ∃ m, meaning shared x = some m ∧ ∀ f ∈ m, Chosen S f := by
    intro x hx
    rcases hh x hx with ⟨rfl, -⟩ | h
    · have := List.all_eq_true.1 h1 _ hx
      simp at this
    · exact h
  rw [Bool.or_eq_true] at h2
  rcases h2 with h2 | h2
  · obtain ⟨x, hx, h2⟩ := List.any_eq_true.1 h2
    obtain ⟨m, e, -⟩ := hm x hx
    simp [e] at h2
  · cases hc : meaning shared r.concl with
    | none => simp [hc] at h2
    | some m =>
      rw [hc] at h2
      refine Or.inr ⟨m, hc, fun f hf => ?_⟩
      have h3 := List.all_eq_true.1 h2 f hf
      refine saturate_sound ?_ f (by simpa using h3)
      intro g hg
      obtain ⟨x, hx, hg⟩ := List.mem_flatMap.1 hg
      obtain ⟨m', e, h4⟩ := hm x hx
      simp only [e, Option.getD_some] at hg
      exact h4 g hg

theorem rules_kept : ∀ shared, rules.all (kept shared) = true := by decide +kernel
theorem shared_kept : sharedRules.all (kept true) = true := by decide +kernel

theorem resolved_outright {shared flag : Bool} {S : Feature → Prop} {x : Fact} (h : Resolved shared flag S x) :
    outright shared flag S x := by
  induction h with
  | root => exact Or.inr ⟨[], rfl, by simp⟩
  | chosen f hf =>
    refine Or.inr ⟨[f], rfl, ?_⟩
    intro g hg
    rw [List.mem_singleton] at hg
    subst hg
    cases g <;> first | exact hf | exact Or.inl hf
  | flag hf => exact Or.inl ⟨rfl, hf⟩
  | rule r hr hh ih => exact kept_sound (List.all_eq_true.1 (rules_kept shared) r hr) ih
  | shared r hs hr hh ih =>
    subst hs
    exact kept_sound (List.all_eq_true.1 shared_kept r hr) ih

theorem resolved_closed (shared flag : Bool) (S : Feature → Prop) : (Resolved shared flag S : Build).Closed :=
  fun r hr hh => Resolved.rule r hr hh

theorem resolved_derived {shared flag : Bool} {S : Feature → Prop} {f : Feature} (hf : S f) (n : Nat) (x : Fact)
    (h : (closure n [.built .stylish, .on .stylish f]).contains x = true) : Resolved shared flag S x := by
  have h0 : ∀ y ∈ [Fact.built .stylish, .on .stylish f], Resolved shared flag S y := by
    intro y hy
    simp only [List.mem_cons, List.not_mem_nil, or_false] at hy
    rcases hy with rfl | rfl
    · exact .root
    · exact .chosen f hf
  exact closure_sound (resolved_closed shared flag S) n _ h0 x (by simpa using h)

theorem derive_check : (closure 3 [.built .stylish, .on .stylish .default]).contains (.on .stylish .std) = true ∧
    (closure 3 [.built .stylish, .on .stylish .default]).contains (.on .stylish .alloc) = true ∧
    (closure 3 [.built .stylish, .on .stylish .default]).contains (.on .stylish .macros) = true ∧
    (closure 3 [.built .stylish, .on .stylish .std]).contains (.on .stylish .alloc) = true := by
  decide +kernel

theorem resolved_chosen {shared flag : Bool} {S : Feature → Prop} {f : Feature} (h : Chosen S f) :
    Resolved shared flag S (.on .stylish f) := by
  obtain ⟨c1, c2, c3, c4⟩ := derive_check
  cases f with
  | default => exact .chosen _ h
  | std =>
    rcases h with h | h
    · exact .chosen _ h
    · exact resolved_derived h 3 _ c1
  | alloc =>
    rcases h with h | h | h
    · exact .chosen _ h
    · exact resolved_derived h 3 _ c4
    · exact resolved_derived h 3 _ c2
  | macros =>
    rcases h with h | h
    · exact .chosen _ h
    · exact resolved_derived h 3 _ c3
  | ansi => exact .chosen _ h
  | html => exact .chosen _ h
  | plain => exact .chosen _ h

theorem resolved_chosen_list {shared flag : Bool} {S : Feature → Prop} {fs : List Feature} (h : ∀ f ∈ fs, Chosen S f) :
    Holds (Resolved shared flag S) .stylish (fs.map .feature) := by
  intro l hl
  obtain ⟨f, hf, rfl⟩ := List.mem_map.1 hl
  exact resolved_chosen (h f hf)

/-- The features that have to be chosen for the conditions, if they can hold at all. -/
def needs (shared : Bool) (conj : List (Crate × Lit)) : Option (List Feature) :=
  conj.foldr (fun p acc => match p.2, acc with
    | .feature f, some fs => (meaning shared (.on p.1 f)).map (· ++ fs)
    | .feature _, none => none
    | _, acc => acc) (some [])

theorem needs_sound {shared flag : Bool} {S : Feature → Prop} (conj : List (Crate × Lit))
    (h : ∀ p ∈ conj, p.2.holds (Resolved shared flag S) p.1) : ∃ fs, needs shared conj = some fs ∧ ∀ f ∈ fs, Chosen S f := by
  induction conj with
  | nil => exact ⟨[], rfl, by simp⟩
  | cons p conj ih =>
    obtain ⟨fs, e, h1⟩ := ih (fun q hq => h q (List.mem_cons_of_mem _ hq))
    have hp := h p List.mem_cons_self
    unfold needs at e ⊢
    rw [List.foldr_cons, e]
    obtain ⟨c, l⟩ := p
    cases l with
    | feature f =>
      rcases resolved_outright hp with ⟨h2, -⟩ | ⟨m, h2, h3⟩
      · cases h2
      · refine ⟨m ++ fs, by simp [h2], ?_⟩
        intro g hg
        rcases List.mem_append.1 hg with hg | hg
        · exact h3 g hg
        · exact h1 g hg
    | notFeature => exact ⟨fs, rfl, h1⟩
    | flag => exact ⟨fs, rfl, h1⟩
    | notFlag => exact ⟨fs, rfl, h1⟩

end Stylish.Cargo
