import Verif.Lemmas.Features
/-
The Cargo features: C91 to C95.
-/

namespace Stylish.Props

open Cargo

set_option maxRecDepth 1000000

/-- C91, first part: whatever features are on in whatever packages, as long as the build keeps to the manifests, every
name that is mentioned in code that is compiled is there, together with everything that the macros expand to. -/
theorem C91_names_resolve (B : Build) (hB : B.Closed) : NamesResolve B := by
  intro c hc
  constructor
  · intro k hk hh r hr
    refine usable_when hB c hc k.cfg hh (some c) r ?_
    intro flag
    have h := List.all_eq_true.1 (List.all_eq_true.1 (List.all_eq_true.1 (List.all_eq_true.1 code_check c c.mem_all) k hk) r hr)
      flag (by cases flag <;> simp)
    exact h
  · intro u hu hh
    have h := List.all_eq_true.1 (List.all_eq_true.1 uses_check c c.mem_all) u hu
    obtain ⟨ns, -, h⟩ := List.any_eq_true.1 h
    refine ⟨ns, usable_when hB c hc u.cfg hh (some c) _ ?_⟩
    intro flag
    exact List.all_eq_true.1 h flag (by cases flag <;> simp)

/-- C91, second part: and no name means two things. -/
theorem C91_names_unique (B : Build) : NamesUnique B := by
  intro c path ns e he e' he' h h'
  obtain ⟨p1, a, ha, hA⟩ := Entry.ways_complete h
  obtain ⟨p2, b, hb, hB⟩ := Entry.ways_complete h'
  have hk := List.all_eq_true.1 (List.all_eq_true.1 (List.all_eq_true.1 unique_check c c.mem_all) e he) e' he'
  rw [Bool.or_eq_true, Bool.or_eq_true, decide_eq_true_eq, decide_eq_true_eq] at hk
  rcases hk with (hk | hk) | hk
  · exact hk
  · exact absurd (p1.trans p2.symm) hk
  · exact (excludes_sound (List.all_eq_true.1 (List.all_eq_true.1 (List.all_eq_true.1 hk ns ns.mem_all) a ha) b hb) hA hB).elim

/-- C91, third part: every feature that a manifest mentions exists, and every dependency it turns on is one. -/
theorem C91_manifests : ∀ c, ∀ p ∈ features c, ∀ e ∈ p.2, match e with
    | .feature g => g ∈ (features c).map Prod.fst
    | .dep d => ∃ x ∈ deps c, x.crate = d ∧ x.optional = true
    | .depFeature d g => d ∈ (deps c).map Dep.crate ∧ g ∈ (features d).map Prod.fst
    | .weakFeature d g => (∃ x ∈ deps c, x.crate = d ∧ x.optional = true) ∧ g ∈ (features d).map Prod.fst := by
  intro c
  have : ∀ c ∈ Crate.all, ∀ p ∈ features c, ∀ e ∈ p.2, match e with
      | .feature g => g ∈ (features c).map Prod.fst
      | .dep d => ∃ x ∈ deps c, x.crate = d ∧ x.optional = true
      | .depFeature d g => d ∈ (deps c).map Dep.crate ∧ g ∈ (features d).map Prod.fst
      | .weakFeature d g => (∃ x ∈ deps c, x.crate = d ∧ x.optional = true) ∧ g ∈ (features d).map Prod.fst := by
    intro c _ p hp e he
    have hk : (Crate.all.all fun c => (features c).all fun p => p.2.all fun e => match e with
      | .feature g => decide (g ∈ (features c).map Prod.fst)
      | .dep d => decide (∃ x ∈ deps c, x.crate = d ∧ x.optional = true)
      | .depFeature d g => decide (d ∈ (deps c).map Dep.crate ∧ g ∈ (features d).map Prod.fst)
      | .weakFeature d g => decide ((∃ x ∈ deps c, x.crate = d ∧ x.optional = true) ∧ g ∈ (features d).map Prod.fst)) = true := by
      decide +kernel
    have h := List.all_eq_true.1 (List.all_eq_true.1 (List.all_eq_true.1 hk c c.mem_all) p hp) e he
    cases e <;> simpa only [decide_eq_true_eq] using h
  exact this c c.mem_all

/-- C91 for the build of `stylish` with any of its features. -/
theorem C91_stylish (shared flag : Bool) (S : Feature → Prop) :
    NamesResolve (Resolved shared flag S) ∧ NamesUnique (Resolved shared flag S) :=
  ⟨C91_names_resolve _ (resolved_closed shared flag S), C91_names_unique _⟩

/-- Non-vacuity: there are builds with all and with none of the optional packages. -/
example : Resolved false false (fun _ => True) (.built .html) ∧ ¬ Resolved false false (fun _ => False) (.built .html) := by
  constructor
  · exact resolved_derived (f := .html) trivial 3 _ (by decide +kernel)
  · intro h
    rcases resolved_outright h with ⟨h, -⟩ | ⟨m, h, h1⟩
    · cases h
    · cases h
      exact h1 .html (by simp)

/-- What `stylish-core` itself exports is not always of use: `write!` is there without the feature `macros`, but what it
expands to is not. (`stylish` does not export it then, see C93.) -/
theorem C91_core_write (B : Build) (h : Usable B none ⟨.core, [.write], .macro⟩) : B (.on .core .macros) := by
  have h1 : ∀ d ∈ coreSource.defs, d.path = [.write] → d.ns = .macro → d.vis = true ∧ ⟨.core, [.format_args], .macro⟩ ∈ d.expands := by
    decide +kernel
  have h2 : ∀ u ∈ coreSource.uses, u.path ≠ [.write] := by decide +kernel
  generalize hr : (⟨.core, [.write], .macro⟩ : Ref) = r at h
  cases h with
  | item _ _ d hd hp hn hc hv hu hx =>
    subst hr
    obtain ⟨h3, h4⟩ := h1 d hd hp hn
    have h5 := hx _ h4
    obtain ⟨conj, h6, h7⟩ := routes_complete h5 2
    have h8 : ∀ out, ∀ conj ∈ routes 2 out ⟨.core, [.format_args], .macro⟩, (.core, .feature .macros) ∈ conj := by decide +kernel
    exact h7 _ (h8 _ conj h6)
  | reexport _ _ u hd hp =>
    subst hr
    exact absurd hp (h2 u hd)

/-! ### C92 -/

theorem no_negations : ∀ c, (∀ d ∈ (source c).defs, ∀ f, Lit.notFeature f ∉ d.cfg) ∧
    (∀ u ∈ (source c).uses, ∀ f, Lit.notFeature f ∉ u.cfg) := by
  have hk : (Crate.all.all fun c =>
      ((source c).defs.all fun d => d.cfg.all fun l => match l with | .notFeature _ => false | _ => true) &&
      ((source c).uses.all fun u => u.cfg.all fun l => match l with | .notFeature _ => false | _ => true)) = true := by
    decide +kernel
  intro c
  have h := List.all_eq_true.1 hk c c.mem_all
  rw [Bool.and_eq_true] at h
  constructor
  · intro d hd f hf
    have := List.all_eq_true.1 (List.all_eq_true.1 h.1 d hd) _ hf
    cases this
  · intro d hd f hf
    have := List.all_eq_true.1 (List.all_eq_true.1 h.2 d hd) _ hf
    cases this

theorem holds_mono {B B' : Build} (h : ∀ x, B x → B' x) (hf : B' .flag → B .flag) {c : Crate} {cfg : List Lit}
    (hn : ∀ f, Lit.notFeature f ∉ cfg) (hh : Holds B c cfg) : Holds B' c cfg := by
  intro l hl
  have h1 := hh l hl
  cases l with
  | feature f => exact h _ h1
  | notFeature f => exact absurd hl (hn f)
  | flag => exact h _ h1
  | notFlag => exact fun h2 => h1 (hf h2)

/-- C92: features are additive. If more features are on in one build than in another (with the same compiler flags),
everything that can be used in the one can be used in the other, from the same places. -/
theorem C92_features_additive (B B' : Build) (h : ∀ x, B x → B' x) (hf : B' .flag → B .flag) (frm : Option Crate) (r : Ref)
    (hu : Usable B frm r) : Usable B' frm r := by
  induction hu with
  | item frm r d hd hp hn hc hv hu hx ih =>
    exact .item frm r d hd hp hn (holds_mono h hf ((no_negations r.crate).1 d hd) hc) hv
      (fun c hc => (hu c hc).imp id (h _)) ih
  | reexport frm r u hd hp hc hv hu ht ih =>
    exact .reexport frm r u hd hp (holds_mono h hf ((no_negations r.crate).2 u hd) hc) hv
      (fun c hc => (hu c hc).imp id (h _)) ih

/-- C92: and asking for more features of `stylish` gives a build in which more is on. -/
theorem C92_choosing_more (shared flag : Bool) (S S' : Feature → Prop) (h : ∀ f, S f → S' f) (frm : Option Crate) (r : Ref)
    (hu : Usable (Resolved shared flag S) frm r) : Usable (Resolved shared flag S') frm r := by
  refine C92_features_additive _ _ ?_ ?_ frm r hu
  · intro x hx
    induction hx with
    | root => exact .root
    | chosen f hf => exact .chosen f (h f hf)
    | flag hf => exact .flag hf
    | rule r hr _ ih => exact .rule r hr ih
    | shared r hs hr _ ih => exact .shared r hs hr ih
  · intro hx
    rcases resolved_outright hx with ⟨-, h⟩ | ⟨m, h, -⟩
    · exact .flag h
    · cases h

/-! ### C93 -/

theorem documented_check : (documented.all fun e => [true, false].all fun flag =>
    usable 10 (knownFacts flag .stylish (e.2.2.map .feature)) (absentFacts flag) none ⟨.stylish, e.1, e.2.1⟩) = true := by
  decide +kernel

theorem documented_complete_check : ([true, false].all fun shared => (entries .stylish).all fun e => Ns.all.all fun ns =>
    (routes 5 true ⟨.stylish, e.path, ns⟩).all fun conj => match needs shared conj with
      | none => true
      | some fs => documented.any fun x => decide (x.1 = e.path) && decide (x.2.1 = ns) &&
          x.2.2.all (saturate fs).contains) = true := by
  decide +kernel

/-- C93: with any choice `S` of the features of `stylish`, a name can be used by those who depend on it exactly if the
README says so: there are no others, and none is missing. -/
theorem C93_readme_features (shared flag : Bool) (S : Feature → Prop) (path : List Id) (ns : Ns) :
    Usable (Resolved shared flag S) none ⟨.stylish, path, ns⟩ ↔
      ∃ fs, (path, ns, fs) ∈ documented ∧ ∀ f ∈ fs, Chosen S f := by
  constructor
  · intro h
    obtain ⟨conj, h1, h2⟩ := routes_complete h 5
    have h1' : conj ∈ routes 5 true ⟨.stylish, path, ns⟩ := h1
    have he : ∃ e ∈ entries .stylish, e.path = path := by
      unfold routes at h1'
      rcases List.mem_append.1 h1' with h3 | h3
      · obtain ⟨d, h3, -⟩ := List.mem_map.1 h3
        obtain ⟨h4, h5⟩ := List.mem_filter.1 h3
        simp only [Bool.and_eq_true, decide_eq_true_eq] at h5
        exact ⟨.def d, List.mem_append_left _ (List.mem_map.2 ⟨d, h4, rfl⟩), h5.1.1⟩
      · obtain ⟨u, h3, -⟩ := List.mem_flatMap.1 h3
        obtain ⟨h4, h5⟩ := List.mem_filter.1 h3
        simp only [Bool.and_eq_true, decide_eq_true_eq] at h5
        exact ⟨.use u, List.mem_append_right _ (List.mem_map.2 ⟨u, h4, rfl⟩), h5.1⟩
    obtain ⟨e, he, rfl⟩ := he
    have hk := List.all_eq_true.1 (List.all_eq_true.1 (List.all_eq_true.1 (List.all_eq_true.1 documented_complete_check shared
      (by cases shared <;> simp)) e he) ns ns.mem_all) conj h1'
    obtain ⟨fs, h3, h4⟩ := needs_sound conj h2
    rw [h3] at hk
    obtain ⟨x, hx, hk⟩ := List.any_eq_true.1 hk
    rw [Bool.and_eq_true, Bool.and_eq_true, decide_eq_true_eq, decide_eq_true_eq] at hk
    obtain ⟨⟨h5, h6⟩, h7⟩ := hk
    obtain ⟨xp, xn, xf⟩ := x
    simp only at h5 h6 h7
    subst h5 h6
    refine ⟨xf, hx, fun f hf => saturate_sound h4 f ?_⟩
    have := List.all_eq_true.1 h7 f hf
    simpa using this
  · rintro ⟨fs, h1, h2⟩
    have hk := List.all_eq_true.1 documented_check _ h1
    exact usable_when (resolved_closed shared flag S) .stylish .root _ (resolved_chosen_list h2) none _
      (fun f => List.all_eq_true.1 hk f (by cases f <;> simp))

/-- C93: and the packages that are built are those that the chosen features take. -/
theorem C93_packages (shared flag : Bool) (S : Feature → Prop) (c : Crate) :
    Resolved shared flag S (.built c) ↔ ∀ f ∈ packageNeeds c, Chosen S f := by
  constructor
  · intro h
    have hm : ∀ shared, ∀ c ∈ Crate.all, meaning shared (.built c) = some (packageNeeds c) := by decide +kernel
    rcases resolved_outright h with ⟨h, -⟩ | ⟨m, h, h1⟩
    · cases h
    · rw [hm shared c c.mem_all] at h
      cases h
      exact h1
  · intro h
    have hk : (Crate.all.all fun c => (knownFacts false .stylish ((packageNeeds c).map .feature)).contains (.built c)) = true := by
      decide +kernel
    have h1 := List.all_eq_true.1 hk c c.mem_all
    refine closure_sound (resolved_closed shared flag S) 3 _ ?_ _ (by simpa [knownFacts] using h1)
    intro x hx
    simp only [Bool.false_eq_true, if_false, List.nil_append, List.mem_cons] at hx
    rcases hx with rfl | hx
    · exact .root
    · exact cfgFacts_sound (resolved_chosen_list h) x hx

/-- Non-vacuity: with the default features there is `write!`, and no `stylish::ansi`; with `ansi` alone there is
`stylish::Ansi`, but no `stylish::ansi::format`. -/
example : Usable (Resolved false false (· = .default)) none ⟨.stylish, [.write], .macro⟩ ∧
    ¬ Usable (Resolved false false (· = .default)) none ⟨.stylish, [.ansi], .type⟩ ∧
    Usable (Resolved false false (· = .ansi)) none ⟨.stylish, [.Ansi], .type⟩ ∧
    ¬ Usable (Resolved false false (· = .ansi)) none ⟨.stylish, [.ansi, .format], .value⟩ := by
  refine ⟨?_, ?_, ?_, ?_⟩
  · exact (C93_readme_features _ _ _ _ _).2 ⟨[.macros], by decide +kernel, by simp [Chosen]⟩
  · rw [C93_readme_features]
    rintro ⟨fs, h, h1⟩
    have : ∀ x ∈ documented, x.1 = [.ansi] → x.2.1 = .type → Feature.ansi ∈ x.2.2 := by decide +kernel
    have := h1 _ (this _ h rfl rfl)
    cases this
  · exact (C93_readme_features _ _ _ _ _).2 ⟨[.ansi], by decide +kernel, by simp [Chosen]⟩
  · rw [C93_readme_features]
    rintro ⟨fs, h, h1⟩
    have : ∀ x ∈ documented, x.1 = [.ansi, .format] → x.2.1 = .value → Feature.alloc ∈ x.2.2 := by decide +kernel
    rcases h1 _ (this _ h rfl rfl) with h | h | h <;> cases h

/-! ### C94 -/

/-- The crates that become part of the user's program. -/
def targetCrates : List Crate := [.style, .core, .ansi, .html, .plain, .stylish]

/-- The crate `x` (`std` or `alloc`) is linked by `extern crate`, or mentioned, in something that is compiled. -/
def Mentions (B : Build) (c : Crate) (x : Id) : Prop :=
  (∃ d ∈ (source c).defs, d.path = [x] ∧ Holds B c d.cfg) ∨
  (∃ k ∈ (source c).code, Holds B c k.cfg ∧ ∃ r ∈ k.refs, r.crate = c ∧ r.path = [x])

/-- Everything that mentions `x` in crate `c` takes the feature `f`. -/
def takes (shared : Bool) (c : Crate) (x : Id) (f : Feature) : Bool :=
  ((source c).defs.all fun d => decide (d.path ≠ [x]) || match needs shared (d.cfg.map (c, ·)) with
    | none => true
    | some fs => (saturate fs).contains f) &&
  ((source c).code.all fun k => (k.refs.all fun r => decide (r.path ≠ [x])) || match needs shared (k.cfg.map (c, ·)) with
    | none => true
    | some fs => (saturate fs).contains f)

theorem takes_sound {shared flag : Bool} {S : Feature → Prop} {c : Crate} {x : Id} {f : Feature} (h : takes shared c x f = true)
    (hm : Mentions (Resolved shared flag S) c x) : Chosen S f := by
  have key : ∀ cfg : List Lit, Holds (Resolved shared flag S) c cfg →
      (match needs shared (cfg.map (c, ·)) with | none => true | some fs => (saturate fs).contains f) = true → Chosen S f := by
    intro cfg hh hk
    obtain ⟨fs, h1, h2⟩ := needs_sound (cfg.map (c, ·)) (by
      intro p hp
      obtain ⟨l, hl, rfl⟩ := List.mem_map.1 hp
      exact hh l hl)
    rw [h1] at hk
    exact saturate_sound h2 f (by simpa using hk)
  unfold takes at h
  rw [Bool.and_eq_true] at h
  rcases hm with ⟨d, hd, hp, hh⟩ | ⟨k, hk, hh, r, hr, -, hp⟩
  · have h1 := List.all_eq_true.1 h.1 d hd
    rw [Bool.or_eq_true, decide_eq_true_eq] at h1
    rcases h1 with h1 | h1
    · exact absurd hp h1
    · exact key _ hh h1
  · have h1 := List.all_eq_true.1 h.2 k hk
    rw [Bool.or_eq_true] at h1
    rcases h1 with h1 | h1
    · have := List.all_eq_true.1 h1 r hr
      rw [decide_eq_true_eq] at this
      exact absurd hp this
    · exact key _ hh h1

/-- C94: without the feature `std`, nothing in the program needs the standard library. -/
theorem C94_no_std (shared flag : Bool) (S : Feature → Prop) (h : ¬ Chosen S .std) (c : Crate) (hc : c ∈ targetCrates) :
    ¬ Mentions (Resolved shared flag S) c .std := by
  intro hm
  have hk : ([true, false].all fun shared => targetCrates.all fun c => takes shared c .std .std) = true := by decide +kernel
  exact h (takes_sound (List.all_eq_true.1 (List.all_eq_true.1 hk shared (by cases shared <;> simp)) c hc) hm)

/-- C94: and without `alloc` nothing needs an allocator (with Cargo's `resolver = "2"`). -/
theorem C94_no_alloc (flag : Bool) (S : Feature → Prop) (h : ¬ Chosen S .alloc) (c : Crate) (hc : c ∈ targetCrates) :
    ¬ Mentions (Resolved false flag S) c .alloc := by
  intro hm
  have hk : (targetCrates.all fun c => takes false c .alloc .alloc) = true := by decide +kernel
  exact h (takes_sound (List.all_eq_true.1 hk c hc) hm)

/-- C94: with `resolver = "1"` the proc macro's allocator gets into the program, by way of `stylish-style`, exactly if
the feature `macros` is chosen. -/
theorem C94_old_resolver (flag : Bool) (S : Feature → Prop) (h : ¬ Chosen S .alloc) (c : Crate) (hc : c ∈ targetCrates) :
    Mentions (Resolved true flag S) c .alloc ↔ c = .style ∧ Chosen S .macros := by
  constructor
  · intro hm
    have hk : (targetCrates.all fun c => if c = .style then takes true c .alloc .macros else takes true c .alloc .alloc) = true := by
      decide +kernel
    have h1 := List.all_eq_true.1 hk c hc
    by_cases hs : c = .style
    · rw [if_pos hs] at h1
      exact ⟨hs, takes_sound h1 hm⟩
    · rw [if_neg hs] at h1
      exact absurd (takes_sound h1 hm) h
  · rintro ⟨rfl, hm⟩
    have h1 : Resolved true flag S (.on .styleHost .alloc) := by
      rcases hm with hm | hm
      · exact resolved_derived hm 3 _ (by decide +kernel)
      · exact resolved_derived hm 3 _ (by decide +kernel)
    have h2 : Resolved true flag S (.on .style .alloc) :=
      .shared ⟨[.on .styleHost .alloc], .on .style .alloc⟩ rfl (by decide +kernel) (by simpa using h1)
    refine Or.inl ⟨⟨[.alloc], .type, false, alloc, []⟩, by decide +kernel, rfl, ?_⟩
    intro l hl
    rw [List.mem_singleton] at hl
    subst hl
    exact h2

/-- Non-vacuity: with `std` the standard library is needed. -/
example : Mentions (Resolved false false (· = .std)) .core .std := by
  refine Or.inl ⟨⟨[.std], .type, false, std, []⟩, by decide +kernel, rfl, ?_⟩
  intro l hl
  rw [List.mem_singleton] at hl
  subst hl
  exact resolved_derived (S := (· = .std)) (f := .std) rfl 3 (.on .core .std) (by decide +kernel)

/-! ### C95 -/

/-- `Box<T>` is a `Restyle` if `T` is, for a program that uses the crate. -/
def BoxedRestyle (B : Build) : Prop := Usable B none ⟨.style, [.RestyleBox], .impl⟩

/-- C95, what is true: if `alloc` is asked for of `stylish-style` itself. -/
theorem C95_boxed_restyle_partial (B : Build) (h : B (.on .style .alloc)) : BoxedRestyle B := by
  refine .item none _ ⟨[.RestyleBox], .impl, true, alloc, []⟩ (by decide +kernel) rfl rfl ?_ (Or.inr rfl) (by simp) (by simp)
  intro l hl
  rw [List.mem_singleton] at hl
  subst hl
  exact h

/-- C95, exactly when: a program that depends on `stylish` has it only with `resolver = "1"`, and by way of `macros`. -/
theorem C95_exact (shared flag : Bool) (S : Feature → Prop) :
    BoxedRestyle (Resolved shared flag S) ↔ shared = true ∧ Chosen S .macros := by
  constructor
  · intro h
    obtain ⟨conj, h1, h2⟩ := routes_complete h 3
    have h3 : ∀ out, ∀ conj ∈ routes 3 out ⟨.style, [.RestyleBox], .impl⟩, (.style, .feature .alloc) ∈ conj := by decide +kernel
    have h4 : Resolved shared flag S (.on .style .alloc) := h2 _ (h3 _ conj h1)
    rcases resolved_outright h4 with ⟨h, -⟩ | ⟨m, h, h5⟩
    · cases h
    · cases shared
      · cases h
      · cases h
        exact ⟨rfl, h5 _ (by simp)⟩
  · rintro ⟨rfl, hm⟩
    refine C95_boxed_restyle_partial _ ?_
    have h1 : Resolved true flag S (.on .styleHost .alloc) := by
      rcases hm with hm | hm
      · exact resolved_derived hm 3 _ (by decide +kernel)
      · exact resolved_derived hm 3 _ (by decide +kernel)
    exact .shared ⟨[.on .styleHost .alloc], .on .style .alloc⟩ rfl (by decide +kernel) (by simpa using h1)

/-- C95 is false of the code: with all features of `stylish` on, and Cargo's default resolver, `Box<T>` is no
`Restyle`. -/
theorem C95_counterexample (flag : Bool) :
    ¬ ∀ S : Feature → Prop, Chosen S .alloc → BoxedRestyle (Resolved false flag S) := by
  intro h
  have := (C95_exact false flag (fun _ => True)).1 (h (fun _ => True) (Or.inl trivial))
  cases this.1

/-- Non-vacuity of the partial theorem. -/
example : ∃ B : Build, B.Closed ∧ B (.on .style .alloc) := ⟨fun _ => True, fun _ _ _ => trivial, trivial⟩

end Stylish.Props
