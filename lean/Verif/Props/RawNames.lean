import Verif.Spec.RawNames
import Verif.Props.MacroCall
import Verif.Props.MacroArgs
/-
Arguments whose names are keywords: C87.
-/

namespace Stylish.Props

open Nom Format Spec Spec.Syntax

variable {Y : Type}

private theorem not_ident_raw {E : Env} (hE : E.Lawful) (s : Str) : ¬ Ident E (str "r#" ++ s) := by
  rintro ⟨c, cs, h, -, hcs⟩
  have e : str "r#" ++ s = 'r' :: '#' :: s := rfl
  rw [e] at h
  obtain ⟨-, rfl⟩ := List.cons.inj h
  have := hcs '#' (by simp)
  rw [hE.continue_ascii '#' (by decide)] at this
  revert this
  decide

private theorem usesName_ident {E : Env} {t : List PieceSyn} (hd : Documented E t) {n : Str} (h : UsesName t n) :
    Ident E n := by
  obtain ⟨spec, hs⟩ := h
  exact (hd.1 _ hs).1 _ rfl

/-- No call with an argument written with a raw name is accepted. -/
private theorem raw_rejected {X : Type} {E : Env} (hE : E.Lawful) (format : Str) (args : List (MacroArg X)) (s : Str)
    (hn : str "r#" ++ s ∈ (nameds args).map Prod.fst) (x : Expansion X) : formatArgsMacro E format args ≠ .ok x := by
  intro h
  obtain ⟨t, -, hd, -, -, -, hu⟩ := (C39_compiles_iff hE format args).1 ⟨x, h⟩
  exact not_ident_raw hE s (usesName_ident hd (hu.2 _ hn))

private theorem nameTree_reads {E : Env} (n : NameTok) (hn : Ident E n.name) :
    Reads E n.placeholder [.arg (some (.name n.name)) none] := by
  refine ⟨?_, ⟨?_, trivial⟩, ⟨?_, ?_⟩⟩
  · simp [print, PieceSyn.print, optStr, ArgRef.print, NameTok.placeholder]
    rfl
  · intro p hp
    simp at hp
    subst hp
    exact ⟨fun r hr => by cases hr; exact hn, by simp⟩
  · intro p hp
    simp at hp
    subst hp
    exact ⟨fun r hr => by cases hr; trivial, by simp⟩
  · exact ⟨by simp [PieceSyn.emptySpec], trivial⟩

private theorem named_ok {X : Type} (n : NameTok) (v : X) (hr : n.raw = false) :
    PositionalFirst [MacroArg.named n.toStr v] ∧ RefsOk [MacroArg.named n.toStr v] [.arg (some (.name n.name)) none] ∧
      AllUsed [MacroArg.named n.toStr v] [.arg (some (.name n.name)) none] := by
  have e : n.toStr = n.name := by simp [NameTok.toStr, hr]
  rw [e]
  refine ⟨⟨[], [(n.name, v)], rfl⟩, ?_, ?_⟩
  · intro before ref spec after h
    have hb : before = [] := by
      cases before with
      | nil => rfl
      | cons q r => simp at h
    subst hb
    obtain ⟨h1, -⟩ := List.cons.inj h
    obtain ⟨rfl, rfl⟩ := PieceSyn.arg.inj h1
    exact ⟨Or.inl (by simp [nameds]), ⟨by simp [specOf], by simp [specOf]⟩⟩
  · refine ⟨by simp [positionals], ?_⟩
    intro m hm
    simp [nameds] at hm
    subst hm
    exact ⟨none, by simp⟩

/-- The full claim: whatever name can be written for an argument, `{name}` shows it. -/
def C87_claim (E : Env) : Prop :=
  ∀ (Y : Type) (n : NameTok) (value : SynExpr Y) (lead : Bool) (segs : List PathSegment) (trailing : Bool),
    n.Written E → ∃ x, formatArgsCall E (callTokens lead segs n.placeholder [n.arg value] trailing) = .ok x

/-- C87, the part that holds: `format_args!("{name}", name = value)` compiles and shows the value, for every name that
is not written as a raw identifier. Missing: `r#name = value`, see `C87_raw_never`. -/
theorem C87_shown_partial {E : Env} (hE : E.Lawful) (n : NameTok) (hw : n.Written E) (hr : n.raw = false)
    (value : SynExpr Y) (lead : Bool) (segs : List PathSegment) (trailing : Bool) :
    (∃ x, formatArgsCall E (callTokens lead segs n.placeholder [n.arg value] trailing) = .ok x) ∧
    ∀ (v : ArgVal) (scope : Str → ArgVal), ∃ y,
      formatArgs E n.placeholder [.named n.toStr v] scope = .ok y ∧
      ∀ st a, writes (Display.fmt y) st a = argOutput v (specOf none) st := by
  obtain ⟨hp, hd, hs⟩ := nameTree_reads n hw.1
  constructor
  · have h := (C48_read_as_written E lead segs n.placeholder
      [(n.arg value, .named n.toStr value)] (by simp only [List.mem_singleton]; rintro p rfl; exact .named _ _ _ _)
      trailing).1
    obtain ⟨x, hx⟩ := (C39_compiles_iff hE n.placeholder [MacroArg.named n.toStr value]).2
      ⟨_, hp, hd, hs, named_ok n value hr⟩
    refine ⟨x, ?_⟩
    rw [show [n.arg value] = [(n.arg value, MacroArg.named n.toStr value)].map Prod.fst from rfl, h]
    simp only [List.map_cons, List.map_nil]
    rw [hx]
    rfl
  · intro v scope
    rcases formatArgs_tree hE [.named n.toStr v] scope _ hd hs with ⟨-, e⟩ | ⟨h, -⟩
    · rw [hp] at e
      refine ⟨_, e, fun st a => ?_⟩
      have h1 := (C46_end_to_end hE _ _ scope _ e).2 _ ⟨hp, hd, hs⟩ st a
      rw [h1, treeOutput]
      have hv : valueFor [MacroArg.named n.toStr v] scope [] (some (.name n.name)) = some v := by
        simp [valueFor, lastNamed, nameds, NameTok.toStr, hr]
      have e1 : pieceOutput [.named n.toStr v] scope [] st (.arg (some (.name n.name)) none) =
          argOutput v (specOf none) st := by
        simp only [pieceOutput, hv]
      rw [e1]
      rcases argOutput v (specOf none) st with ⟨l, _ | _ | _ | _⟩ <;> simp [treeOutput]
    · exact absurd (named_ok n v hr) h

private theorem named_of_arg {args : List (MacroArg (SynExpr Y))} {toks : List (Tok Y)} (hl : args.length = toks.length)
    (h : ∀ p ∈ toks.zip args, ReadsAs p.1 p.2) (n : NameTok) (value : SynExpr Y) (hn : n.arg value ∈ toks) :
    n.toStr ∈ (nameds args).map Prod.fst := by
  induction toks generalizing args with
  | nil => cases hn
  | cons t toks ih =>
    cases args with
    | nil => simp at hl
    | cons a args =>
      simp only [List.zip_cons_cons, List.mem_cons, forall_eq_or_imp] at h
      rcases List.mem_cons.1 hn with rfl | hn'
      · have h1 := h.1
        unfold NameTok.arg at h1
        cases h1 with
        | named => simp [nameds]
        | positional _ hne => exact absurd rfl (hne _ _ _ _)
      · have := ih (by simpa using hl) h.2 hn'
        cases a with
        | positional e => simpa [nameds] using this
        | named m e => simp only [nameds, List.filterMap_cons, List.map_cons, List.mem_cons] at this ⊢; exact .inr this

/-- C87 is false of raw identifiers, always: no call with an argument `r#name = value` compiles, whatever the format
string, the name and the other arguments are. (The argument is looked up with its `r#`, which no placeholder can have.) -/
theorem C87_raw_never {E : Env} (hE : E.Lawful) (n : NameTok) (hr : n.raw = true) (value : SynExpr Y)
    (toks : List (Tok Y)) (htoks : ∀ t ∈ toks, (∃ e, t = .expr e) ∨ ∃ s, t = .lit s) (hn : n.arg value ∈ toks)
    (lead : Bool) (segs : List PathSegment) (format : Str) (trailing : Bool) (x : Expansion (SynExpr Y)) :
    formatArgsCall E (callTokens lead segs format toks trailing) ≠ .ok x ∧
    formatArgsNlCall E (callTokens lead segs format toks trailing) ≠ .ok x := by
  obtain ⟨args, ⟨hl, hz⟩, -, h1, h2⟩ := C48_every_argument_list E lead segs format toks htoks trailing
  have hm := named_of_arg hl hz n value hn
  have hname : n.toStr = str "r#" ++ n.name := by simp [NameTok.toStr, hr]
  rw [hname] at hm
  rw [h1, h2]
  constructor
  · intro h
    rcases hx : formatArgsMacro E format args with e | y
    · rw [hx] at h; cases h
    · exact raw_rejected hE format args _ hm y hx
  · intro h
    rcases hx : formatArgsNlMacro E format args with e | y
    · rw [hx] at h; cases h
    · obtain ⟨z, hz'⟩ := (C41_accepts_same hE format args).1 ⟨y, hx⟩
      exact raw_rejected hE format args _ hm z hz'

/-- C87, exactly: of the names that can be written, `{name}` takes those that are not raw. -/
theorem C87_exact {E : Env} (hE : E.Lawful) (n : NameTok) (hw : n.Written E) (value : SynExpr Y) (lead : Bool)
    (segs : List PathSegment) (trailing : Bool) :
    (∃ x, formatArgsCall E (callTokens lead segs n.placeholder [n.arg value] trailing) = .ok x) ↔ n.raw = false := by
  constructor
  · rintro ⟨x, hx⟩
    cases hr : n.raw with
    | false => rfl
    | true =>
      exact absurd hx (C87_raw_never hE n hr value [n.arg value]
        (by simp only [List.mem_singleton]; rintro t rfl; exact .inl ⟨_, rfl⟩) (by simp) lead segs _ trailing x).1
  · intro hr
    exact (C87_shown_partial hE n hw hr value lead segs trailing).1

/-- C87: so a keyword in a placeholder always means the variable: in every call that compiles, with arguments whose
names can be written, `{type}` shows the variable `r#type` in scope. -/
theorem C87_keyword_is_variable {E : Env} (hE : E.Lawful) (before after : List PieceSyn) (kw : Str) (hk : kw ∈ keywords)
    (spec : Option SpecSyn) (args : List (MacroArg ArgVal)) (scope : Str → ArgVal)
    (hargs : ∀ p ∈ nameds args, ∃ n : NameTok, n.Written E ∧ p.1 = n.toStr) (format : Str)
    (ht : Reads E format (before ++ .arg (some (.name kw)) spec :: after)) (x : Arguments)
    (hx : formatArgs E format args scope = .ok x) (st : Style) (a : FormatterArgs) :
    writes (Display.fmt x) st a =
      andThen (treeOutput args scope st [] before) (andThen (argOutput (scope kw) (specOf spec) st)
        (treeOutput args scope st (before ++ [.arg (some (.name kw)) spec]) after)) := by
  have h : lastNamed args kw = none := by
    unfold lastNamed
    rw [List.filter_eq_nil_iff.2]
    · rfl
    · intro p hp he
      obtain ⟨n, hw, hn⟩ := hargs p hp
      have hpk : n.toStr = kw := by rw [← hn]; simpa using he
      cases hr : n.raw with
      | false =>
        have : n.toStr = n.name := by simp [NameTok.toStr, hr]
        exact (hw.2.1 hr).1 (by rw [← this, hpk]; exact hk)
      | true =>
        have e : n.toStr = 'r' :: '#' :: n.name := by simp [NameTok.toStr, hr]; rfl
        rw [hpk] at e
        have hall : ∀ k ∈ keywords, k.tail.head? ≠ some '#' := by decide +kernel
        exact hall kw hk (by rw [e]; rfl)
  obtain ⟨rfl, hd, hs⟩ := ht
  obtain ⟨v, hv, -, -, -, hw⟩ := C38_placeholder_value hE before after (some (.name kw)) spec args scope x hd hs hx
  have e : v = scope kw := by simpa [valueFor, h] using hv.symm
  rw [hw, e]

/-- C87 is false: `format_args!("{type}", r#type = 1)` does not compile. -/
theorem C87_counterexample : ¬ C87_claim asciiEnv ∧
    NameTok.Written asciiEnv ⟨true, str "type"⟩ ∧
    (match formatArgsCall asciiEnv
        (callTokens true [] (str "{type}") [NameTok.arg ⟨true, str "type"⟩ (SynExpr.other 1)] false) with
      | .error e => e == .later .unusedArguments
      | .ok _ => false) = true := by
  have hw : NameTok.Written asciiEnv ⟨true, str "type"⟩ :=
    ⟨⟨'t', ['y', 'p', 'e'], by decide +kernel, by decide +kernel, by decide +kernel⟩, by simp, by decide +kernel⟩
  refine ⟨fun h => ?_, hw, by decide +kernel⟩
  obtain ⟨x, hx⟩ := h Nat ⟨true, str "type"⟩ (.other 1) true [] false hw
  have := (C87_exact asciiEnv_lawful ⟨true, str "type"⟩ hw (.other 1) true [] false).1 ⟨x, hx⟩
  cases this

/-- C87_shown_partial and C87_exact apply to `kind = 1`, C87_keyword_is_variable to `{type}` beside it. -/
example : NameTok.Written asciiEnv ⟨false, str "kind"⟩ ∧ str "type" ∈ keywords ∧
    (match formatArgsCall asciiEnv (callTokens true [] (str "{type} {kind}")
        [NameTok.arg ⟨false, str "kind"⟩ (SynExpr.other 1)] false) with
      | .error _ => false
      | .ok x => x.implicit == [str "type"]) = true :=
  ⟨⟨⟨'k', ['i', 'n', 'd'], by decide +kernel, by decide +kernel, by decide +kernel⟩,
    fun _ => ⟨by decide +kernel, by decide +kernel⟩, by simp⟩, by decide +kernel, by decide +kernel⟩

end Stylish.Props
