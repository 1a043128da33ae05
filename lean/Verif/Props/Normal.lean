import Verif.Spec.Normal
import Verif.Props.RawNames
/-
Names that Unicode counts as the same: C99.
-/

namespace Stylish.Props

open Nom Format Spec Spec.Syntax

variable {Y : Type} {E : Env} (hE : E.Lawful) (N : NormalForm E)

/-- The tree of `{name}`. -/
private theorem named_reads {n : Str} (hn : Ident E n) : Reads E (named n) [.arg (some (.name n)) none] := by
  refine ⟨?_, ⟨?_, trivial⟩, ⟨?_, ?_⟩⟩
  · simp [print, PieceSyn.print, optStr, ArgRef.print, named]
    rfl
  · intro p hp
    simp at hp
    subst hp
    exact ⟨fun r hr => by cases hr; exact hn, by simp⟩
  · intro p hp
    simp at hp
    subst hp
    exact ⟨fun r hr => by cases hr; trivial, by simp⟩
  · exact ⟨by simp [PieceSyn.emptySpec], trivial⟩

private theorem call_eq (written inFormat : Str) (value : SynExpr Y) (lead : Bool) (segs : List PathSegment)
    (trailing : Bool) :
    (∃ x, formatArgsCall E (callTokens lead segs (named inFormat) [N.arg written value] trailing) = .ok x) ↔
      ∃ x, formatArgsMacro E (named inFormat) [MacroArg.named (N.nfc written) value] = .ok x := by
  have h := (C48_read_as_written E lead segs (named inFormat)
    [(N.arg written value, MacroArg.named (N.nfc written) value)]
    (by simp only [List.mem_singleton]; rintro p rfl; exact .named _ _ _ _) trailing).1
  rw [show [N.arg written value] = [(N.arg written value, MacroArg.named (N.nfc written) value)].map Prod.fst from rfl, h]
  simp only [List.map_cons, List.map_nil]
  constructor
  · rintro ⟨x, hx⟩
    rcases hm : formatArgsMacro E (named inFormat) [MacroArg.named (N.nfc written) value] with e | y
    · rw [hm] at hx; cases hx
    · exact ⟨y, rfl⟩
  · rintro ⟨x, hx⟩
    exact ⟨x, by rw [hx]; rfl⟩

private theorem named_fine {X : Type} (n : Str) (v : X) :
    PositionalFirst [MacroArg.named n v] ∧ RefsOk [MacroArg.named n v] [.arg (some (.name n)) none] ∧
      AllUsed [MacroArg.named n v] [.arg (some (.name n)) none] := by
  refine ⟨⟨[], [(n, v)], rfl⟩, ?_, ⟨by simp [positionals], ?_⟩⟩
  · intro before ref spec after h
    have hb : before = [] := by
      cases before with
      | nil => rfl
      | cons q r => simp at h
    subst hb
    obtain ⟨h1, -⟩ := List.cons.inj h
    obtain ⟨rfl, rfl⟩ := PieceSyn.arg.inj h1
    exact ⟨Or.inl (by simp [nameds]), ⟨by simp [specOf], by simp [specOf]⟩⟩
  · intro m hm
    simp [nameds] at hm
    subst hm
    exact ⟨none, by simp⟩

include hE

/-- A call that is only `{name}`. -/
private theorem one_shown (n : Str) (hn : Ident E n) (args : List (MacroArg ArgVal)) (scope : Str → ArgVal) (v : ArgVal)
    (hok : PositionalFirst args ∧ RefsOk args [.arg (some (.name n)) none] ∧ AllUsed args [.arg (some (.name n)) none])
    (hv : valueFor args scope [] (some (.name n)) = some v) :
    ∃ y, formatArgs E (named n) args scope = .ok y ∧
      ∀ st a, writes (Display.fmt y) st a = argOutput v (specOf none) st := by
  obtain ⟨hp, hd, hs⟩ := named_reads hn
  rcases formatArgs_tree hE args scope _ hd hs with ⟨-, e⟩ | ⟨h, -⟩
  · rw [hp] at e
    refine ⟨_, e, fun st a => ?_⟩
    have h1 := (C46_end_to_end hE _ _ scope _ e).2 _ ⟨hp, hd, hs⟩ st a
    rw [h1, treeOutput]
    have e1 : pieceOutput args scope [] st (.arg (some (.name n)) none) = argOutput v (specOf none) st := by
      simp only [pieceOutput, hv]
    rw [e1]
    rcases argOutput v (specOf none) st with ⟨l, _ | _ | _ | _⟩ <;> simp [treeOutput]
  · exact absurd hok h

/-- The full claim: an argument is found under every spelling of its name. -/
def C99_claim (N : NormalForm E) : Prop :=
  ∀ (Y : Type) (written inFormat : Str) (value : SynExpr Y) (lead : Bool) (segs : List PathSegment) (trailing : Bool),
    Ident E written → Ident E inFormat → N.Same written inFormat →
    ∃ x, formatArgsCall E (callTokens lead segs (named inFormat) [N.arg written value] trailing) = .ok x

/-- C99, exactly: of the spellings of its name, an argument is found under one, the normal form, however it is spelled
where it is given. -/
theorem C99_exact (written inFormat : Str) (hf : Ident E inFormat) (value : SynExpr Y) (lead : Bool)
    (segs : List PathSegment) (trailing : Bool) :
    (∃ x, formatArgsCall E (callTokens lead segs (named inFormat) [N.arg written value] trailing) = .ok x) ↔
      inFormat = N.nfc written := by
  rw [call_eq]
  obtain ⟨hp, hd, hs⟩ := named_reads hf
  constructor
  · rintro ⟨x, hx⟩
    rcases formatArgsMacro_tree hE [MacroArg.named (N.nfc written) value] _ hd hs with ⟨⟨-, -, hu⟩, -⟩ | ⟨-, e, he, -⟩
    · obtain ⟨spec, hm⟩ := hu.2 (N.nfc written) (by simp [nameds])
      simp at hm
      exact hm.1.symm
    · rw [hp] at he
      rw [he] at hx
      cases hx
  · rintro rfl
    exact (C39_compiles_iff hE _ _).2 ⟨_, hp, hd, hs, named_fine _ _⟩

/-- C99, the part that holds: an argument, however its name is spelled where it is given, is shown by its name in normal
form. Missing: the other spellings in the format string, see `C99_exact`. -/
theorem C99_shown_partial (written : Str) (hw : Ident E written) (v : ArgVal) (vars : Str → ArgVal) :
    ∃ y, formatArgs E (named (N.nfc written)) [.named (N.nfc written) v] (N.scope vars) = .ok y ∧
      ∀ st a, writes (Display.fmt y) st a = argOutput v (specOf none) st := by
  refine one_shown hE (N.nfc written) (N.ident _ hw) _ _ v ?_ (by simp [valueFor, lastNamed, nameds])
  exact named_fine _ _

/-- C99: a variable that is captured is found under every spelling of its name. (The five names that Rust does not let
one write as raw identifiers are no variables.) -/
theorem C99_captured (name : Str) (hn : Ident E name)
    (hv : name ∉ [str "_", str "super", str "self", str "Self", str "crate"]) (vars : Str → ArgVal) :
    ∃ y, formatArgs E (named name) [] (N.scope vars) = .ok y ∧
      ∀ st a, writes (Display.fmt y) st a = argOutput (vars (N.nfc name)) (specOf none) st := by
  refine one_shown hE name hn _ _ _ ?_ (by simp [valueFor, lastNamed, nameds, NormalForm.scope])
  refine ⟨⟨[], [], rfl⟩, ?_, ⟨by simp [positionals], by simp [nameds]⟩⟩
  intro before ref spec after h
  have hb : before = [] := by
    cases before with
    | nil => rfl
    | cons q r => simp at h
  subst hb
  obtain ⟨h1, -⟩ := List.cons.inj h
  obtain ⟨rfl, rfl⟩ := PieceSyn.arg.inj h1
  exact ⟨Or.inr (by simpa using hv), ⟨by simp [specOf], by simp [specOf]⟩⟩

/-- C99: and that is what a spelling that is not the normal form always means: in every call that compiles it shows the
variable in scope, also if an argument of that name is given. -/
theorem C99_variable_instead (before after : List PieceSyn) (name : Str) (hn : N.nfc name ≠ name)
    (spec : Option SpecSyn) (args : List (MacroArg ArgVal)) (vars : Str → ArgVal)
    (hargs : ∀ p ∈ nameds args, ∃ written, p.1 = N.nfc written) (format : Str)
    (ht : Reads E format (before ++ .arg (some (.name name)) spec :: after)) (x : Arguments)
    (hx : formatArgs E format args (N.scope vars) = .ok x) (st : Style) (a : FormatterArgs) :
    writes (Display.fmt x) st a =
      andThen (treeOutput args (N.scope vars) st [] before)
        (andThen (argOutput (vars (N.nfc name)) (specOf spec) st)
          (treeOutput args (N.scope vars) st (before ++ [.arg (some (.name name)) spec]) after)) := by
  have h : lastNamed args name = none := by
    unfold lastNamed
    rw [List.filter_eq_nil_iff.2]
    · rfl
    · intro p hp he
      obtain ⟨w, hw⟩ := hargs p hp
      have e : N.nfc w = name := by rw [← hw]; simpa using he
      exact hn (by rw [← e, N.idem])
  obtain ⟨rfl, hd, hs⟩ := ht
  obtain ⟨v, hv, -, -, -, hw⟩ := C38_placeholder_value hE before after (some (.name name)) spec args _ x hd hs hx
  have e : v = vars (N.nfc name) := by simpa [valueFor, h, NormalForm.scope] using hv.symm
  rw [hw, e]

omit hE

/-- An environment in which `é` can be spelled as one character or as two. -/
def accentEnv : Env :=
  ⟨fun c => c.isAlpha || c == 'é', fun c => c.isAlphanum || c == '_' || c == 'é' || c == '\u0301', 2 ^ 64 - 1⟩

/-- `e` and a combining accent are put together. -/
def accents : Str → Str
  | [] => []
  | [c] => [c]
  | c :: d :: rest => if c = 'e' ∧ d = '\u0301' then 'é' :: accents rest else c :: accents (d :: rest)

theorem accents_head (d : Char) (rest : Str) (h : (accents (d :: rest)).head? = some '\u0301') : d = '\u0301' := by
  cases rest with
  | nil => simpa [accents] using h
  | cons e rest =>
    rw [accents] at h
    split at h
    · simp at h
    · simpa using h

theorem accents_cons (c : Char) (s : Str) (h : c = 'e' → s.head? ≠ some '\u0301') : accents (c :: s) = c :: accents s := by
  cases s with
  | nil => rfl
  | cons d rest =>
    rw [accents, if_neg]
    rintro ⟨rfl, rfl⟩
    exact h rfl rfl

theorem accents_idem : ∀ s, accents (accents s) = accents s
  | [] => rfl
  | [c] => rfl
  | c :: d :: rest => by
    by_cases h : c = 'e' ∧ d = '\u0301'
    · rw [accents, if_pos h, accents_cons _ _ (fun h => absurd h (by decide)), accents_idem rest]
    · rw [accents, if_neg h, accents_cons, accents_idem (d :: rest)]
      intro hc hd
      exact h ⟨hc, accents_head _ _ hd⟩

theorem accents_mem : ∀ (s : Str) (c : Char), c ∈ accents s → c ∈ s ∨ c = 'é'
  | [], c, h => by simp [accents] at h
  | [d], c, h => .inl (by simpa [accents] using h)
  | d :: e :: rest, c, h => by
    rw [accents] at h
    split at h
    · rcases List.mem_cons.1 h with rfl | h
      · exact .inr rfl
      · rcases accents_mem rest c h with h | h
        · exact .inl (by simp [h])
        · exact .inr h
    · rcases List.mem_cons.1 h with rfl | h
      · exact .inl (by simp)
      · rcases accents_mem (e :: rest) c h with h | h
        · exact .inl (List.mem_cons_of_mem _ h)
        · exact .inr h

/-- The normal form of that environment. -/
def accentForm : NormalForm accentEnv where
  nfc := accents
  idem := accents_idem
  ident := by
    rintro s ⟨c, cs, rfl, hc, hcs⟩
    have key : ∀ x ∈ cs, accentEnv.xidContinue x = true := hcs
    have e : accentEnv.xidContinue 'é' = true := by decide
    cases cs with
    | nil => exact ⟨c, [], rfl, hc, by simp⟩
    | cons d rest =>
      by_cases h : c = 'e' ∧ d = '\u0301'
      · refine ⟨'é', accents rest, by rw [accents, if_pos h], .inl (by decide), fun x hx => ?_⟩
        rcases accents_mem _ _ hx with hx | rfl
        · exact key x (by simp [hx])
        · exact e
      · refine ⟨c, accents (d :: rest), by rw [accents, if_neg h], hc, fun x hx => ?_⟩
        rcases accents_mem _ _ hx with hx | rfl
        · exact key x hx
        · exact e

theorem accentEnv_lawful : accentEnv.Lawful := by
  constructor
  · intro c hc
    have h : (c == 'é') = false := by
      rw [beq_eq_false_iff_ne]; rintro rfl; exact absurd hc (by decide)
    simp [accentEnv, h]
  · intro c hc
    have h : (c == 'é') = false := by
      rw [beq_eq_false_iff_ne]; rintro rfl; exact absurd hc (by decide)
    have h' : (c == '\u0301') = false := by
      rw [beq_eq_false_iff_ne]; rintro rfl; exact absurd hc (by decide)
    simp only [accentEnv, h, h', Bool.or_false]

/-- C99 is false: `format_args!("{é}", é = 1)` does not compile if both `é` are spelled with two characters. -/
theorem C99_counterexample : ¬ C99_claim accentForm ∧
    (match formatArgsCall accentEnv
        (callTokens true [] (named ['e', '\u0301']) [accentForm.arg ['e', '\u0301'] (SynExpr.other 1)] false) with
      | .error e => e == .later .unusedArguments
      | .ok _ => false) = true := by
  refine ⟨fun h => ?_, by decide +kernel⟩
  have hi : Ident accentEnv ['e', '\u0301'] := ⟨'e', ['\u0301'], rfl, .inl (by decide), by decide⟩
  have := (C99_exact accentEnv_lawful accentForm _ _ hi (SynExpr.other 1) true [] false).1
    (h Nat _ _ (SynExpr.other 1) true [] false hi hi rfl)
  exact absurd this (by decide)

/-- C99_shown_partial, C99_captured and C99_variable_instead apply: `{é}{é}`, first spelled with two characters, then
with one, with an argument `é`. -/
example : Ident accentEnv ['e', '\u0301'] ∧ accentForm.nfc ['e', '\u0301'] = ['é'] ∧
    (match formatArgsCall accentEnv (callTokens true [] (named ['e', '\u0301'] ++ named ['é'])
        [accentForm.arg ['e', '\u0301'] (SynExpr.other 1)] false) with
      | .error _ => false
      | .ok x => x.implicit == [['e', '\u0301']]) = true :=
  ⟨⟨'e', ['\u0301'], rfl, .inl (by decide), by decide⟩, by decide, by decide +kernel⟩

end Stylish.Props
