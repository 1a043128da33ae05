import Verif.Lemmas.StdCall
import Verif.Props.StdParity
import Verif.Props.Dropped
/-
Calls written for std's `format!`: C89.
-/

namespace Stylish.Props

open Nom Format Spec Spec.Syntax
open StdCall (nameOf indexFor shown Accepts Portable bare)

variable {X : Type}

theorem nameOf_named {n : Str} (h : ¬ str "r#" <+: n) (v : X) : nameOf (.named n v) = some n := by
  unfold nameOf
  split
  · rename_i h'; cases h'
  · rename_i n' v' h'
    cases h'
    exact absurd ⟨n', rfl⟩ h
  · rename_i h'; cases h'; rfl

theorem nameOf_positional (v : X) : nameOf (.positional v) = none := rfl

theorem _root_.Stylish.Spec.StdCall.RefOk.lt {args : List (MacroArg X)} {before : List StdCall.Piece}
    {ref : Option ArgRef} (h : StdCall.RefOk args before ref) {i : Nat} (hi : indexFor args before ref = some i) :
    i < args.length := by
  rcases h with ⟨j, hj, hlt⟩ | ⟨hn, -⟩
  · rw [hi] at hj; cases hj; exact hlt
  · rw [hi] at hn; cases hn

/-- In a list of positional and then named arguments. -/
theorem nth_split (es : List X) (ns : List (Str × X)) (i : Nat) :
    (es.map MacroArg.positional ++ ns.map (fun p => MacroArg.named p.1 p.2))[i]? =
      if i < es.length then (es[i]?).map .positional
      else (ns[i - es.length]?).map fun p => .named p.1 p.2 := by
  rw [List.getElem?_append]
  simp only [List.length_map, List.getElem?_map]

theorem bare_toSyn (t : List StdCall.Piece) : bareCount (t.map (·.toSyn)) = bare t := by
  unfold bareCount bare
  rw [List.countP_map]
  congr 1
  funext p
  cases p with
  | arg ref spec space => cases ref <;> rfl
  | _ => rfl

section
variable {args : List (MacroArg X)}

theorem mem_nameds {n : Str} {v : X} : (n, v) ∈ nameds args ↔ .named n v ∈ args := by
  unfold nameds
  rw [List.mem_filterMap]
  constructor
  · rintro ⟨a, ha, h⟩
    cases a with
    | positional => cases h
    | named m w => cases h; exact ha
  · intro h; exact ⟨_, h, rfl⟩

theorem nameOf_eq_some (hr : ∀ n v, .named n v ∈ args → ¬ str "r#" <+: n) {a : MacroArg X} (ha : a ∈ args) (n : Str) :
    nameOf a = some n ↔ ∃ v, a = .named n v := by
  cases a with
  | positional v => simp [nameOf]
  | named m v =>
    rw [nameOf_named (hr m v ha)]
    simp

theorem names_eq (hr : ∀ n v, .named n v ∈ args → ¬ str "r#" <+: n) :
    args.filterMap nameOf = (nameds args).map Prod.fst := by
  induction args with
  | nil => rfl
  | cons a args ih =>
    have := ih fun n v h => hr n v (by simp [h])
    cases a with
    | positional v =>
      rw [List.filterMap_cons, nameOf_positional]
      simpa [nameds] using this
    | named n v =>
      rw [List.filterMap_cons, nameOf_named (hr n v (by simp))]
      simpa [nameds] using this

/-- A name given at most once is the same argument for both. -/
theorem shown_name (hr : ∀ n v, .named n v ∈ args → ¬ str "r#" <+: n) (hn : (args.filterMap nameOf).Nodup)
    (scope : Str → X) (before : List StdCall.Piece) (n : Str) :
    shown args scope before (some (.name n)) = some ((lastNamed args n).getD (scope n)) := by
  unfold shown
  cases hi : indexFor args before (some (.name n)) with
  | none =>
    simp only [indexFor, List.findIdx?_eq_none_iff] at hi
    have : lastNamed args n = none := by
      unfold lastNamed
      rw [Option.map_eq_none_iff, List.getLast?_eq_none_iff, List.filter_eq_nil_iff]
      rintro ⟨m, v⟩ hm he
      have hm' := mem_nameds.1 hm
      have he : m = n := by simpa using he
      subst he
      have := hi _ hm'
      rw [nameOf_named (hr _ _ hm')] at this
      simp at this
    rw [this]; rfl
  | some i =>
    simp only [indexFor, List.findIdx?_eq_some_iff_getElem] at hi
    obtain ⟨hlt, hp, -⟩ := hi
    have hmem : args[i] ∈ args := List.getElem_mem hlt
    obtain ⟨v, hv⟩ := (nameOf_eq_some hr hmem n).1 (by simpa using hp)
    have hsplit : args = args.take i ++ .named n v :: args.drop (i + 1) := by
      rw [← hv, List.getElem_cons_drop, List.take_append_drop]
    have hnot : n ∉ (nameds (args.drop (i + 1))).map Prod.fst := by
      intro hm
      obtain ⟨⟨m, w⟩, hmm, e⟩ := List.mem_map.1 hm
      have e : m = n := e
      subst e
      have hm' := mem_nameds.1 hmm
      rw [hsplit, List.filterMap_append, List.filterMap_cons,
        nameOf_named (hr _ v (by rw [← hv]; exact hmem)), List.nodup_append] at hn
      have h2 := hn.2.1
      rw [List.nodup_cons] at h2
      refine h2.1 (List.mem_filterMap.2 ⟨_, hm', ?_⟩)
      exact nameOf_named (hr m w (List.mem_of_mem_drop hm')) w
    have hl := lastNamed_here (args.take i) (args.drop (i + 1)) n v hnot
    rw [← hsplit] at hl
    rw [hl]
    show (args[i]?).map StdCall.valueOf = _
    rw [List.getElem?_eq_getElem hlt]
    simp [hv, StdCall.valueOf]

/-- An argument by number, when it is not a named one. -/
theorem nth_value (hf : PositionalFirst args) (hr : ∀ n v, .named n v ∈ args → ¬ str "r#" <+: n) (i : Nat)
    (hlt : i < args.length) (hn : ∀ a, args[i]? = some a → nameOf a = none) :
    i < (positionals args).length ∧ (args[i]?).map StdCall.valueOf = (positionals args)[i]? := by
  obtain ⟨es, ns, rfl⟩ := hf
  rw [positionals_split]
  rw [nth_split] at hn ⊢
  by_cases h : i < es.length
  · refine ⟨h, ?_⟩
    rw [if_pos h, List.getElem?_eq_getElem h]
    rfl
  · exfalso
    rw [if_neg h] at hn
    have h2 : i - es.length < ns.length := by simp at hlt; omega
    rw [List.getElem?_eq_getElem h2] at hn
    have := hn _ rfl
    rw [nameOf_named (hr _ ns[i - es.length].2 (by
      apply List.mem_append_right
      exact List.mem_map.2 ⟨_, List.getElem_mem h2, rfl⟩))] at this
    cases this

end

open StdCallLemmas

theorem good_of_portable {t : List StdCall.Piece} {args : List (MacroArg X)} (h : Portable t args) : ∀ p ∈ t, Good p := by
  intro p hp
  cases p with
  | arg ref spec space =>
    refine ⟨h.space _ _ _ hp, ?_⟩
    rintro s rfl f a ha
    exact h.fill ref s space f a hp ha
  | _ => trivial

theorem map_split {t : List StdCall.Piece} {before' after' : List PieceSyn} {ref : Option ArgRef}
    {spec : Option SpecSyn} (h : t.map (·.toSyn) = before' ++ .arg ref spec :: after') :
    ∃ before space after, t = before ++ .arg ref spec space :: after ∧ before' = before.map (·.toSyn) := by
  rw [List.map_eq_append_iff] at h
  obtain ⟨b, r, rfl, hb, hr⟩ := h
  rw [List.map_eq_cons_iff] at hr
  obtain ⟨p, a, rfl, hp, -⟩ := hr
  cases p with
  | arg ref' spec' space => cases hp; exact ⟨b, space, a, rfl, hb.symm⟩
  | text => cases hp
  | openBrace => cases hp
  | closeBrace => cases hp

theorem arg_spec {E : Env} {t : List StdCall.Piece} (h : StdCall.Tree E t) {ref : Option ArgRef} {spec : Option SpecSyn}
    {space : Str} (hm : .arg ref spec space ∈ t) :
    (specOf spec).NoParams ∧ (specOf spec).ty ≠ .stylish ∧ (specOf spec).attrs = none ∧
      ∀ r, ref = some r → r.Documented E := by
  obtain ⟨h1, h2, -⟩ := tree_ok t h _ hm
  refine ⟨?_, ?_, ?_, fun r hr => (h1 r hr).1⟩
  · cases spec with
    | none => exact ⟨nofun, nofun⟩
    | some s =>
      obtain ⟨-, hw, hp, -⟩ := h2 s rfl
      refine ⟨fun r hr => ?_, fun r hr => ?_⟩
      · obtain ⟨ds, h, -⟩ := hw _ hr; cases h
      · obtain ⟨ds, h, -⟩ := hp _ hr; cases h
  · cases spec with
    | none => nofun
    | some s => exact (h2 s rfl).2.2.2.2
  · cases spec with
    | none => rfl
    | some s => exact (h2 s rfl).2.2.2.1

/-- A call that std accepts and that can be taken over is accepted. -/
theorem accepted_of_portable {E : Env} {t : List StdCall.Piece} {args : List (MacroArg X)} (ha : Accepts E t args)
    (hp : Portable t args) : PositionalFirst args ∧ RefsOk args (t.map (·.toSyn)) ∧ AllUsed args (t.map (·.toSyn)) := by
  have hnum : ∀ before ref spec space after, t = before ++ .arg ref spec space :: after →
      (∀ n, ref ≠ some (.name n)) → ∀ i, indexFor args before ref = some i → i < (positionals args).length := by
    intro before ref spec space after e hr i hi
    have hlt := (ha.refs before ref spec space after e).lt hi
    exact (nth_value ha.positionalFirst hp.noRaw i hlt (hp.numbers before ref spec space after e hr i hi)).1
  refine ⟨ha.positionalFirst, ?_, ?_, ?_⟩
  · intro before' ref spec after' e
    obtain ⟨before, space, after, rfl, rfl⟩ := map_split e
    refine ⟨?_, (arg_spec ha.tree (by simp : StdCall.Piece.arg ref spec space ∈ _)).1⟩
    rcases ref with _ | ⟨ds | n⟩
    · show bareCount _ < _
      rw [bare_toSyn]
      exact hnum _ _ _ _ _ rfl nofun _ rfl
    · exact hnum _ _ _ _ _ rfl nofun _ rfl
    · have := ha.refs before _ spec space after rfl
      cases hi : indexFor args before (some (.name n)) with
      | some i =>
        left
        simp only [indexFor, List.findIdx?_eq_some_iff_getElem] at hi
        obtain ⟨hlt, hpn, -⟩ := hi
        obtain ⟨v, hv⟩ := (nameOf_eq_some hp.noRaw (List.getElem_mem hlt) n).1 (by simpa using hpn)
        exact List.mem_map.2 ⟨(n, v), mem_nameds.2 (by rw [← hv]; exact List.getElem_mem hlt), rfl⟩
      | none =>
        rcases this with ⟨i, h, -⟩ | ⟨-, n', h, this⟩
        · rw [hi] at h; cases h
        cases h
        right
        intro hm
        have hself : n = str "self" := by
          simp only [List.mem_cons, List.not_mem_nil, or_false, not_or] at hm this
          rcases hm with h | h | h | h | h
          · exact absurd h this.1
          · exact absurd h this.2.1
          · exact h
          · exact absurd h this.2.2.1
          · exact absurd h this.2.2.2
        subst hself
        obtain ⟨a, ham, hna⟩ := hp.noSelf spec space (by simp)
        simp only [indexFor, List.findIdx?_eq_none_iff] at hi
        have := hi a ham
        rw [hna] at this
        simp at this
  · intro i hi
    obtain ⟨es, ns, rfl⟩ := ha.positionalFirst
    rw [positionals_split] at hi
    obtain ⟨before, ref, spec, space, after, rfl, hix⟩ := ha.used i (by simp; omega)
    refine ⟨before.map (·.toSyn), ref, spec, after.map (·.toSyn), by simp [StdCall.Piece.toSyn], ?_⟩
    rcases ref with _ | ⟨ds | n⟩
    · left
      rw [bare_toSyn]
      exact ⟨rfl, (Option.some.inj hix).symm⟩
    · right
      exact ⟨ds, rfl, (Option.some.inj hix).symm⟩
    · exfalso
      simp only [indexFor, List.findIdx?_eq_some_iff_getElem] at hix
      obtain ⟨hlt, hpn, -⟩ := hix
      have h1 := nth_split es ns i
      rw [if_pos hi, List.getElem?_eq_getElem hi, List.getElem?_eq_getElem hlt] at h1
      have h1 := Option.some.inj h1
      rw [h1] at hpn
      simp [nameOf] at hpn
  · intro n hn
    obtain ⟨⟨m, v⟩, hm, rfl⟩ := List.mem_map.1 hn
    have hm' := mem_nameds.1 hm
    obtain ⟨i, hlt, hget⟩ := List.getElem_of_mem hm'
    obtain ⟨before, ref, spec, space, after, e, hix⟩ := ha.used i hlt
    have hname : nameOf args[i] = some m := by rw [hget]; exact nameOf_named (hp.noRaw _ _ hm') v
    have href : ∃ m', ref = some (.name m') := by
      apply Classical.byContradiction
      intro hno
      have := hp.numbers before ref spec space after e (fun n' h => hno ⟨n', h⟩) i hix args[i]
        (List.getElem?_eq_getElem hlt)
      rw [hname] at this
      cases this
    obtain ⟨m', rfl⟩ := href
    simp only [indexFor, List.findIdx?_eq_some_iff_getElem] at hix
    obtain ⟨_, hpn, -⟩ := hix
    rw [hname] at hpn
    obtain rfl : m = m' := by simpa using hpn
    exact ⟨spec, by rw [e]; simp [StdCall.Piece.toSyn]⟩

/-- C89: a call that std accepts compiles exactly when it is one of those that can be taken over. -/
theorem C89_exact {E : Env} (hE : E.Lawful) (t : List StdCall.Piece) (args : List (MacroArg ArgVal))
    (ha : Accepts E t args) (scope : Str → ArgVal) :
    (∃ x, formatArgs E (StdCall.print t) args scope = .ok x) ↔ Portable t args := by
  constructor
  · rintro ⟨x, hx⟩
    obtain ⟨t', hp', hd', hs', -⟩ := formatArgs_ok_tree hE hx
    have hg := good_of_accepted hE t ha.tree ⟨[], _, (parseFormat_iff hE _ _ _).2 ⟨rfl, t', hp', rfl, hd', hs'⟩⟩
    obtain ⟨hd, hs⟩ := tree_prefix t [] (by simpa using ha.tree) hg
    rw [print_goods hg] at hx
    rcases formatArgs_tree hE args scope _ hd hs with ⟨⟨hf, hr, hu⟩, -⟩ | ⟨-, e, he⟩
    rotate_left
    · rw [he] at hx; cases hx
    have hraw : ∀ n v, .named n v ∈ args → ¬ str "r#" <+: n := by
      intro n v hm hpre
      obtain ⟨spec, hus⟩ := hu.2 n (List.mem_map.2 ⟨_, mem_nameds.2 hm, rfl⟩)
      have hid : Ident E n := (hd.1 _ hus).1 _ rfl
      obtain ⟨r, rfl⟩ := hpre
      exact hE.ident_ne hid (c := '#') (by decide) (by simp [str])
    refine ⟨?_, ?_, ?_, ?_, hraw⟩
    · intro ref s space f a hm hal
      exact (hg _ hm).2 s rfl f a hal
    · intro ref spec space hm
      exact (hg _ hm).1
    · rintro before ref spec space after rfl hno i hi a hai
      have h1 := (hr (before.map (·.toSyn)) ref spec (after.map (·.toSyn)) (by simp [StdCall.Piece.toSyn])).1
      have hlt : i < (positionals args).length := by
        rcases ref with _ | ⟨ds | n⟩
        · cases hi
          have h1 : bareCount _ < _ := h1
          rwa [bare_toSyn] at h1
        · cases hi; exact h1
        · exact absurd rfl (hno n)
      obtain ⟨es, ns, rfl⟩ := hf
      rw [positionals_split] at hlt
      rw [nth_split, if_pos hlt, List.getElem?_eq_getElem hlt] at hai
      cases hai
      rfl
    · intro spec space hm
      obtain ⟨before, after, e⟩ := List.append_of_mem hm
      subst e
      have h1 := (hr (before.map (·.toSyn)) (some (.name (str "self"))) spec (after.map (·.toSyn))
        (by simp [StdCall.Piece.toSyn])).1
      rcases h1 with h1 | h1
      · obtain ⟨⟨m, v⟩, hm, e⟩ := List.mem_map.1 h1
        have e : m = str "self" := e
        subst e
        have hm' := mem_nameds.1 hm
        exact ⟨_, hm', nameOf_named (hraw _ _ hm') v⟩
      · exact absurd (by decide) h1
  · intro hp
    have hg := good_of_portable hp
    obtain ⟨hd, hs⟩ := tree_prefix t [] (by simpa using ha.tree) hg
    rw [print_goods hg]
    rcases formatArgs_tree hE args scope _ hd hs with ⟨-, e⟩ | ⟨hno, -⟩
    · exact ⟨_, e⟩
    · exact absurd (accepted_of_portable ha hp) hno

/-- The string std gives, in terms of the tree without white space. -/
theorem format_toSyn {E : Env} (args : List (MacroArg ArgVal)) (scope : Str → ArgVal) (t : List StdCall.Piece)
    (ha : Accepts E t args) (hp : Portable t args) (before rest : List StdCall.Piece) (e : t = before ++ rest) :
    StdCall.format args scope before rest = stdFormat args scope (before.map (·.toSyn)) (rest.map (·.toSyn)) := by
  induction rest generalizing before with
  | nil => rfl
  | cons p rest ih =>
    have hpiece : StdCall.pieceText args scope before p = stdPiece args scope (before.map (·.toSyn)) p.toSyn := by
      cases p with
      | text s => rfl
      | openBrace => rfl
      | closeBrace => rfl
      | arg ref spec space =>
        have hm : StdCall.Piece.arg ref spec space ∈ t := by rw [e]; simp
        have hopt : StdCall.options (specOf spec) = (specOf spec).stdOptions := by
          have hfill : (((specOf spec).align.bind Prod.fst).getD ' ') = ' ' := by
            cases spec with
            | none => rfl
            | some s =>
              show ((s.align.bind Prod.fst).getD ' ') = ' '
              rcases hal : s.align with _ | ⟨_ | f, a⟩
              · rfl
              · rfl
              · exact hp.fill ref s space f a hm hal
          unfold StdCall.options
          rw [hfill]
          rfl
        have hval : shown args scope before ref = valueFor args scope (before.map (·.toSyn)) ref := by
          have hnth : ∀ i, indexFor args before ref = some i → (∀ n, ref ≠ some (.name n)) →
              (args[i]?).map StdCall.valueOf = (positionals args)[i]? := by
            intro i hi hno
            have hlt := (ha.refs before ref spec space rest e).lt hi
            exact (nth_value ha.positionalFirst hp.noRaw i hlt (hp.numbers before ref spec space rest e hno i hi)).2
          rcases ref with _ | ⟨ds | n⟩
          · show _ = (positionals args)[bareCount _]?
            rw [bare_toSyn]
            exact hnth _ rfl nofun
          · exact hnth _ rfl nofun
          · exact shown_name hp.noRaw ha.distinct scope before n
        simp only [StdCall.pieceText, stdPiece, StdCall.Piece.toSyn, hval, hopt]
    have := ih (before ++ [p]) (by rw [e]; simp)
    simp only [StdCall.format, stdFormat, List.map_cons, hpiece, this, List.map_append, List.map_nil]

/-- C89 (partial: only the calls that can be taken over, which C89_exact shows to be all that compile): a call that std
accepts compiles and gives the same string, or panics when std's does; so do `ansi::format!` and `plain::format!`. -/
theorem C89_same_partial {E : Env} (hE : E.Lawful) (t : List StdCall.Piece) (args : List (MacroArg ArgVal))
    (ha : Accepts E t args) (hp : Portable t args) (scope : Str → ArgVal) :
    ∃ x, formatArgs E (StdCall.print t) args scope = .ok x ∧
      plainFormat x = orPanic (StdCall.format args scope [] t) ∧
      ansiFormat x = orPanic (StdCall.format args scope [] t) := by
  obtain ⟨x, hx⟩ := (C89_exact hE t args ha scope).2 hp
  have hg := good_of_portable hp
  obtain ⟨hd, hs⟩ := tree_prefix t [] (by simpa using ha.tree) hg
  have hrd : Reads E (StdCall.print t) (t.map (·.toSyn)) := ⟨(print_goods hg).symm, hd, hs⟩
  have harg : ∀ ref spec, PieceSyn.arg ref spec ∈ t.map (·.toSyn) → (specOf spec).ty ≠ .stylish ∧ (specOf spec).attrs = none := by
    intro ref spec hm
    obtain ⟨before', after', e⟩ := List.append_of_mem hm
    obtain ⟨before, space, after, rfl, -⟩ := map_split e
    exact ⟨(arg_spec ha.tree (by simp : StdCall.Piece.arg ref spec space ∈ _)).2.1,
      (arg_spec ha.tree (by simp : StdCall.Piece.arg ref spec space ∈ _)).2.2.1⟩
  refine ⟨x, hx, ?_, ?_⟩ <;> rw [format_toSyn args scope t ha hp [] t rfl]
  · exact C49_plain_is_std hE _ args scope x hx _ hrd fun ref spec hm => (harg ref spec hm).1
  · exact C49_ansi_is_std hE _ args scope x hx _ hrd (fun ref spec hm => (harg ref spec hm).1)
      fun ref spec hm => (harg ref spec hm).2

/-- The full claim. -/
def C89_claim (E : Env) : Prop :=
  ∀ (t : List StdCall.Piece) (args : List (MacroArg ArgVal)), Accepts E t args → ∀ scope,
    ∃ x, formatArgs E (StdCall.print t) args scope = .ok x ∧ plainFormat x = orPanic (StdCall.format args scope [] t)

/-- A piece of this crate's grammar as one of std's. -/
def ofSyn : PieceSyn → StdCall.Piece
  | .text s => .text s
  | .openBrace => .openBrace
  | .closeBrace => .closeBrace
  | .arg ref spec => .arg ref spec []

theorem toSyn_ofSyn (p : PieceSyn) : (ofSyn p).toSyn = p := by cases p <;> rfl

theorem map_toSyn_ofSyn (t : List PieceSyn) : (t.map ofSyn).map (·.toSyn) = t := by
  rw [List.map_map]
  have : ((fun p : StdCall.Piece => p.toSyn) ∘ ofSyn) = id := funext toSyn_ofSyn
  rw [this, List.map_id]

theorem print_ofSyn (t : List PieceSyn) : StdCall.print (t.map ofSyn) = print t := by
  induction t with
  | nil => rfl
  | cons p t ih =>
    simp only [StdCall.print, print, List.map_cons, List.flatMap_cons] at ih ⊢
    rw [ih]
    congr 1
    cases p <;> simp [ofSyn, StdCall.Piece.print, PieceSyn.print]

theorem tree_ofSyn {E : Env} (t : List PieceSyn) (hd : Documented E t) (hs : Supported E t) (hstd : StdOnly t)
    (hna : NoAttrs t) (hnp : ∀ ref spec, .arg ref spec ∈ t → (specOf spec).NoParams) : StdCall.Tree E (t.map ofSyn) := by
  induction t with
  | nil => trivial
  | cons p t ih =>
    have hd' : Documented E t := by
      refine ⟨fun p hp => hd.1 p (by simp [hp]), ?_⟩
      cases t with
      | nil => trivial
      | cons r t => exact hd.2.2
    refine ⟨?_, ?_, ?_, ih hd' ⟨fun p hp => hs.1 p (by simp [hp]), hs.2.2⟩ (fun ref spec h => hstd ref spec (by simp [h]))
      (fun ref spec h => hna ref spec (by simp [h])) (fun ref spec h => hnp ref spec (by simp [h]))⟩
    · have h1 := hd.1 p (by simp)
      have h2 := hs.1 p (by simp)
      cases p with
      | text s => exact h1
      | openBrace => trivial
      | closeBrace => trivial
      | arg ref spec =>
        refine ⟨fun r hr => ⟨h1.1 r hr, ?_⟩, fun s hs' => ?_, by simp⟩
        · rintro ds rfl; exact h2.1 _ hr
        · subst hs'
          have hp := hnp ref (some s) (by simp)
          refine ⟨h1.2 s rfl, fun w hw => ?_, fun w hw => ?_, hna ref (some s) (by simp), hstd ref (some s) (by simp)⟩
          · have := (h2.2 s rfl).2.1 w hw
            cases w with
            | lit ds => exact ⟨ds, rfl, this⟩
            | param r => exact absurd hw (hp.1 r)
          · obtain ⟨c, rfl, hc⟩ := (h2.2 s rfl).2.2.2.1 w hw
            cases c with
            | lit ds => exact ⟨ds, rfl, hc⟩
            | param r => exact absurd hw (hp.2 r)
    · intro ht q hq
      cases t with
      | nil => simp at hq
      | cons r t =>
        obtain rfl : ofSyn r = q := by simpa using hq
        have := hd.2.1 (by rw [← isText_toSyn, toSyn_ofSyn] at ht; exact ht)
        rw [← isText_toSyn, toSyn_ofSyn]; exact this
    · intro he
      rw [print_ofSyn]
      refine hs.2.1 ?_
      cases p with
      | arg ref spec => cases spec <;> exact he
      | _ => cases he

theorem map_ofSyn_split {t : List PieceSyn} {before after : List StdCall.Piece} {ref : Option ArgRef}
    {spec : Option SpecSyn} {space : Str} (h : t.map ofSyn = before ++ .arg ref spec space :: after) :
    ∃ b a, t = b ++ .arg ref spec :: a ∧ before = b.map ofSyn := by
  rw [List.map_eq_append_iff] at h
  obtain ⟨b, r, rfl, hb, hr⟩ := h
  rw [List.map_eq_cons_iff] at hr
  obtain ⟨p, a, rfl, hp, -⟩ := hr
  cases p with
  | arg ref' spec' => cases hp; exact ⟨b, a, rfl, hb.symm⟩
  | text => cases hp
  | openBrace => cases hp
  | closeBrace => cases hp

/-- C89, the other way round: a call that compiles, uses std traits only, has no attributes and does not give a name
twice is also accepted by std. (And gives the same string: C89_same_partial.) -/
theorem C89_back {E : Env} (hE : E.Lawful) (format : Str) (args : List (MacroArg ArgVal)) (scope : Str → ArgVal)
    (x : Arguments) (h : formatArgs E format args scope = .ok x) (t : List PieceSyn) (ht : Reads E format t)
    (hstd : StdOnly t) (hna : NoAttrs t) (hnd : ((nameds args).map Prod.fst).Nodup) :
    ∃ t', StdCall.print t' = format ∧ Accepts E t' args ∧ Portable t' args := by
  obtain ⟨rfl, hd, hs⟩ := ht
  rcases formatArgs_tree hE args scope t hd hs with ⟨⟨hf, hr, hu⟩, -⟩ | ⟨-, e, he⟩
  rotate_left
  · rw [he] at h; cases h
  have hraw : ∀ n v, .named n v ∈ args → ¬ str "r#" <+: n := by
    intro n v hm hpre
    obtain ⟨spec, hus⟩ := hu.2 n (List.mem_map.2 ⟨_, mem_nameds.2 hm, rfl⟩)
    have hid : Ident E n := (hd.1 _ hus).1 _ rfl
    obtain ⟨r, rfl⟩ := hpre
    exact hE.ident_ne hid (c := '#') (by decide) (by simp [str])
  have hnp : ∀ ref spec, .arg ref spec ∈ t → (specOf spec).NoParams := by
    intro ref spec hm
    obtain ⟨b, a, rfl⟩ := List.append_of_mem hm
    exact (hr b ref spec a rfl).2
  have hbare : ∀ b : List PieceSyn, bare (b.map ofSyn) = bareCount b := by
    intro b
    rw [← bare_toSyn, map_toSyn_ofSyn]
  have hle : (positionals args).length ≤ args.length := List.length_filterMap_le _ _
  have hfind : ∀ n v, .named n v ∈ args → ∀ i, (hi : i < args.length) → args[i] = .named n v →
      args.findIdx? (fun a => nameOf a = some n) = some i := by
    intro n v hm i hi hv
    have hnd' := hnd
    rw [← names_eq hraw] at hnd'
    rw [List.findIdx?_eq_some_iff_getElem]
    refine ⟨hi, by rw [hv, nameOf_named (hraw n v hm)]; simp, fun j hj => ?_⟩
    intro hpj
    have hj' : j < args.length := by omega
    have hpj : nameOf args[j] = some n := by simpa using hpj
    have hsplit : args = args.take i ++ .named n v :: args.drop (i + 1) := by
      rw [← hv, List.getElem_cons_drop, List.take_append_drop]
    rw [hsplit, List.filterMap_append, List.filterMap_cons, nameOf_named (hraw n v hm), List.nodup_append] at hnd'
    refine hnd'.2.2 n ?_ n (by simp) rfl
    exact List.mem_filterMap.2 ⟨args[j], List.mem_take_iff_getElem.2 ⟨j, by omega, rfl⟩, hpj⟩
  have hacc : Accepts E (t.map ofSyn) args := by
    refine ⟨tree_ofSyn t hd hs hstd hna hnp, hf, by rw [names_eq hraw]; exact hnd, ?_, ?_⟩
    · intro before ref spec space after e
      obtain ⟨b, a, rfl, rfl⟩ := map_ofSyn_split e
      have h1 := (hr b ref spec a rfl).1
      rcases ref with _ | ⟨ds | n⟩
      · refine Or.inl ⟨_, rfl, ?_⟩
        rw [hbare]
        exact Nat.lt_of_lt_of_le h1 hle
      · exact Or.inl ⟨_, rfl, Nat.lt_of_lt_of_le h1 hle⟩
      · cases hi : indexFor args (b.map ofSyn) (some (.name n)) with
        | some i =>
          refine Or.inl ⟨i, hi, ?_⟩
          simp only [indexFor, List.findIdx?_eq_some_iff_getElem] at hi
          exact hi.1
        | none =>
          refine Or.inr ⟨hi, n, rfl, ?_⟩
          rcases h1 with h1 | h1
          · exfalso
            obtain ⟨⟨m, v⟩, hm, e⟩ := List.mem_map.1 h1
            have e : m = n := e
            subst e
            have hm' := mem_nameds.1 hm
            simp only [indexFor, List.findIdx?_eq_none_iff] at hi
            have := hi _ hm'
            rw [nameOf_named (hraw _ _ hm')] at this
            simp at this
          · intro hm
            refine h1 ?_
            simp only [List.mem_cons, List.not_mem_nil, or_false] at hm ⊢
            rcases hm with h | h | h | h <;> simp [h]
    · intro i hi
      rcases ha : args[i] with v | ⟨n, v⟩
      · have hip : i < (positionals args).length := by
          obtain ⟨es, ns, rfl⟩ := hf
          rw [positionals_split]
          apply Classical.byContradiction
          intro hge
          have h1 := nth_split es ns i
          rw [if_neg hge, List.getElem?_eq_getElem hi, ha] at h1
          cases hx : ns[i - es.length]? with
          | none => rw [hx] at h1; cases h1
          | some q => rw [hx] at h1; cases h1
        obtain ⟨b, ref, spec, a, rfl, hor⟩ := hu.1 i hip
        refine ⟨b.map ofSyn, ref, spec, [], a.map ofSyn, by simp [ofSyn], ?_⟩
        rcases hor with ⟨rfl, rfl⟩ | ⟨ds, rfl, rfl⟩
        · show some (bare _) = _
          rw [hbare]
        · rfl
      · have hm : MacroArg.named n v ∈ args := by rw [← ha]; exact List.getElem_mem hi
        obtain ⟨spec, hus⟩ := hu.2 n (List.mem_map.2 ⟨_, mem_nameds.2 hm, rfl⟩)
        obtain ⟨b, a, rfl⟩ := List.append_of_mem hus
        exact ⟨b.map ofSyn, some (.name n), spec, [], a.map ofSyn, by simp [ofSyn], hfind n v hm i hi ha⟩
  refine ⟨t.map ofSyn, print_ofSyn t, hacc, ?_⟩
  rw [← C89_exact hE _ args hacc scope, print_ofSyn]
  exact ⟨x, h⟩

/-! ### The five kinds of calls that cannot be taken over -/

theorem accepts_single {E : Env} (ref : Option ArgRef) (spec : Option SpecSyn) (space : Str) (args : List (MacroArg X))
    (hok : (StdCall.Piece.arg ref spec space).Ok E) (hf : PositionalFirst args) (hn : (args.filterMap nameOf).Nodup)
    (hr : StdCall.RefOk args [] ref)
    (hu : ∀ i < args.length, indexFor args [] ref = some i) : Accepts E [.arg ref spec space] args := by
  refine ⟨⟨hok, nofun, fun _ => rfl, trivial⟩, hf, hn, ?_, ?_⟩
  · intro before ref' spec' space' after e
    cases before with
    | nil => cases e; exact hr
    | cons p before => cases before <;> cases e
  · intro i hi
    exact ⟨[], ref, spec, space, [], rfl, hu i hi⟩

/-- `{:*<5}`, `{ }`, `{}` for a named argument, `{self}`, and `{type}` for `r#type = ..`. -/
def unportable : List (List StdCall.Piece × List (MacroArg ArgVal)) :=
  [([.arg none (some { align := some (some '*', .Left), width := some (.lit ['5']) }) []], [.positional (textArg ['x'])]),
   ([.arg none none [' ']], [.positional (textArg ['x'])]),
   ([.arg none none []], [.named ['a'] (textArg ['x'])]),
   ([.arg (some (.name ['s', 'e', 'l', 'f'])) none []], []),
   ([.arg (some (.name ['t', 'y', 'p', 'e'])) none []], [.named ['r', '#', 't', 'y', 'p', 'e'] (textArg ['x'])])]

theorem unportable_accepts : ∀ c ∈ unportable, Accepts asciiEnv c.1 c.2 := by
  have one : ∀ (a : MacroArg ArgVal) (ref : Option ArgRef), indexFor [a] [] ref = some 0 →
      StdCall.RefOk [a] [] ref ∧ ∀ i < [a].length, indexFor [a] [] ref = some i := by
    intro a ref h
    refine ⟨Or.inl ⟨0, h, by simp⟩, fun i hi => ?_⟩
    obtain rfl : i = 0 := by simp at hi; omega
    exact h
  have nodup : ∀ a : MacroArg ArgVal, ([a].filterMap nameOf).Nodup := by
    intro a
    rw [List.filterMap_cons]
    cases nameOf a <;> simp
  have posF : ∀ v : ArgVal, PositionalFirst [MacroArg.positional v] := fun v => ⟨[v], [], rfl⟩
  have namF : ∀ n (v : ArgVal), PositionalFirst [MacroArg.named n v] := fun n v => ⟨[], [(n, v)], rfl⟩
  have go : ∀ (a : MacroArg ArgVal) (ref spec space), PositionalFirst [a] → indexFor [a] [] ref = some 0 →
      (StdCall.Piece.arg ref spec space).Ok asciiEnv → Accepts asciiEnv [.arg ref spec space] [a] :=
    fun a ref spec space hf hi hok => accepts_single ref spec space [a] hok hf (nodup a) (one a ref hi).1 (one a ref hi).2
  simp only [unportable, List.mem_cons, List.not_mem_nil, or_false]
  generalize textArg ['x'] = v
  rintro c (rfl | rfl | rfl | rfl | rfl)
  · refine go _ _ _ _ (posF _) rfl ⟨nofun, ?_, by simp⟩
    rintro s ⟨⟩
    refine ⟨⟨?_, ?_, nofun, nofun⟩, ?_, nofun, rfl, nofun⟩
    · rintro _ ⟨⟩; exact ⟨by decide, by decide⟩
    · rintro _ ⟨⟩ _; decide
    · rintro _ ⟨⟩; exact ⟨_, rfl, by decide⟩
  · exact go (.positional v) none none [' '] (posF v) rfl (by simp [StdCall.Piece.Ok])
  · exact go (.named ['a'] v) none none [] (namF _ _) rfl (by simp [StdCall.Piece.Ok])
  · refine accepts_single (some (.name ['s', 'e', 'l', 'f'])) none [] [] ⟨?_, by simp, by simp⟩ ⟨[], [], rfl⟩ (by simp)
      (Or.inr ⟨rfl, _, rfl, by decide⟩) (by simp)
    rintro _ ⟨⟩
    exact ⟨⟨_, _, rfl, by decide, by decide⟩, nofun⟩
  · refine go (.named ['r', '#', 't', 'y', 'p', 'e'] v) (some (.name ['t', 'y', 'p', 'e'])) none [] (namF _ _) (by rfl)
      ⟨?_, by simp, by simp⟩
    rintro _ ⟨⟩
    exact ⟨⟨_, _, rfl, by decide, by decide⟩, nofun⟩

/-- C89 does not hold as it stands: std accepts each of these, and none of them compiles. -/
theorem C89_counterexamples :
    ¬ C89_claim asciiEnv ∧
    unportable.map (fun c => StdCall.print c.1) = [str "{:*<5}", str "{ }", str "{}", str "{self}", str "{type}"] ∧
    ∀ c ∈ unportable, Accepts asciiEnv c.1 c.2 ∧ ∀ x, formatArgs asciiEnv (StdCall.print c.1) c.2 noScope ≠ .ok x := by
  have key : unportable.all (fun c => match formatArgs asciiEnv (StdCall.print c.1) c.2 noScope with
      | .ok _ => false | .error _ => true) = true := by decide +kernel
  have hno : ∀ c ∈ unportable, ∀ x, formatArgs asciiEnv (StdCall.print c.1) c.2 noScope ≠ .ok x := by
    intro c hc x hx
    have := List.all_eq_true.1 key c hc
    rw [hx] at this
    cases this
  refine ⟨fun hcl => ?_, by decide +kernel, fun c hc => ⟨unportable_accepts c hc, hno c hc⟩⟩
  have hc : unportable.head (by simp [unportable]) ∈ unportable := List.head_mem _
  obtain ⟨x, hx, -⟩ := hcl _ _ (unportable_accepts _ hc) noScope
  exact hno _ hc x hx

/-- C89 where it holds: `{}{a: >5}` with a positional and a named argument. -/
example : ∃ (t : List StdCall.Piece) (args : List (MacroArg ArgVal)), Accepts asciiEnv t args ∧ Portable t args ∧
    StdCall.print t = str "{:<3}{a: >5?}" ∧ args.length = 2 := by
  have hx : (match formatArgs asciiEnv (str "{:<3}{a: >5?}")
      [.positional (textArg ['x']), .named ['a'] (textArg ['y'])] noScope with
      | .ok _ => true | .error _ => false) = true := by decide +kernel
  rcases h : formatArgs asciiEnv (str "{:<3}{a: >5?}")
      [.positional (textArg ['x']), .named ['a'] (textArg ['y'])] noScope with e | x
  · rw [h] at hx; cases hx
  · let t : List PieceSyn :=
      [.arg none (some { align := some (none, .Left), width := some (.lit ['3']) }),
       .arg (some (.name ['a'])) (some { align := some (some ' ', .Right), width := some (.lit ['5']), ty := .debug })]
    have ht : Reads asciiEnv (str "{:<3}{a: >5?}") t := by
      refine ⟨by decide +kernel, ⟨?_, ⟨nofun, trivial⟩⟩, ?_, by decide +kernel, by decide +kernel, trivial⟩
      · simp only [t, List.mem_cons, List.not_mem_nil, or_false]
        rintro p (rfl | rfl)
        · refine ⟨nofun, ?_⟩
          rintro s ⟨⟩
          refine ⟨?_, ?_, nofun, nofun⟩
          · rintro _ ⟨⟩; exact ⟨by decide, by decide⟩
          · rintro _ ⟨⟩ _; decide
        · refine ⟨?_, ?_⟩
          · rintro r ⟨⟩; exact ⟨_, _, rfl, by decide, by decide⟩
          · rintro s ⟨⟩
            refine ⟨?_, ?_, nofun, nofun⟩
            · rintro _ ⟨⟩; exact ⟨by decide, by decide⟩
            · rintro _ ⟨⟩ _; decide
      · simp only [t, List.mem_cons, List.not_mem_nil, or_false]
        rintro p (rfl | rfl)
        · refine ⟨nofun, ?_⟩
          rintro s ⟨⟩
          refine ⟨nofun, ?_, nofun, nofun, nofun⟩
          rintro _ ⟨⟩; show _ ≤ _; decide
        · refine ⟨?_, ?_⟩
          · rintro r ⟨⟩; trivial
          · rintro s ⟨⟩
            refine ⟨?_, ?_, nofun, nofun, nofun⟩
            · rintro _ _ ⟨⟩; rfl
            · rintro _ ⟨⟩; show _ ≤ _; decide
    obtain ⟨t', h1, h2, h3⟩ := C89_back asciiEnv_lawful _ _ _ x h t ht
      (by
        intro ref spec hm
        simp only [t, List.mem_cons, List.not_mem_nil, or_false] at hm
        rcases hm with h | h <;> cases h <;> nofun)
      (by
        intro ref spec hm
        simp only [t, List.mem_cons, List.not_mem_nil, or_false] at hm
        rcases hm with h | h <;> cases h <;> rfl)
      (by simp [nameds])
    exact ⟨t', _, h2, h3, h1, rfl⟩

end Stylish.Props
