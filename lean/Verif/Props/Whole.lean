import Verif.Props.Compiles
import Verif.Props.Css
import Verif.Props.Vt
import Verif.Props.Text
import Verif.Props.Io
/-
From a call in the source to what is seen: C77.
-/

namespace Stylish.Props

open Spec Spec.Syntax Spec.Browser Spec.Vt Rust Format

variable {Y St : Type}

/-- The code a macro makes of a call: `format_args_nl!` or `format_args!`. -/
abbrev madeOf (nl : Bool) (E : Env) (toks : List (Tok Y)) : Except CallError (RExpr (SynExpr Y)) :=
  if nl then Tokens.formatArgsNlCall E toks else Tokens.formatArgsCall E toks

/-- The format string with what the macro appends. -/
abbrev withEnd (nl : Bool) (format : Str) : Str := if nl then format ++ ['\n'] else format

theorem whole_core {E : Env} (hE : E.Lawful) (P : Place Y St) (args : List (MacroArg (SynExpr Y))) (toks : List (Tok Y))
    (format : Str) (code : Except CallError (RExpr (SynExpr Y))) (x : Except CallError (Expansion (SynExpr Y)))
    (hc : (code = Tokens.formatArgsCall E toks ∧ x = formatArgsCall E toks) ∨
      (code = Tokens.formatArgsNlCall E toks ∧ x = formatArgsNlCall E toks))
    (h48 : x = laterPhase (formatArgsMacro E format args))
    (tree : List PieceSyn) (ht : Reads E format tree) (hpf : PositionalFirst args) (hr : RefsOk args tree)
    (hau : AllUsed args tree) (htm : TraitsMet (args.map (argMeaning P.types)) P.varTypes tree) (st : St) :
    ∃ t out, code = .ok t ∧
      eval P.exprs P.scope t st = some (.arguments out, (evalArgs (args.map (argMeaning P.meaning)) st).2) ∧
      formatArgs E format (evalArgs (args.map (argMeaning P.meaning)) st).1 P.value = .ok out := by
  obtain ⟨t, r, hcall, hrun⟩ := (compiles_core hE format args toks code x hc h48 P.scope P.callSite P.preludeSome
    P.preludeDefault P.exprs P.meaning P.types P.exprsMean P.vars P.lookup st).2 ⟨tree, ht, hpf, hr, hau, htm⟩
  let vars' : Str → TypedVal := fun n => (P.vars n).getD ⟨P.value n, fun _ => false⟩
  have himpls : P.varTypes = fun n => (vars' n).impls := by
    funext n tr
    simp only [vars', Place.varTypes]
    cases P.vars n <;> rfl
  have hvalues : (fun n => (vars' n).value) = P.value := by
    funext n
    simp only [vars', Place.value]
    rcases hn : P.vars n with _ | v <;> rfl
  rw [himpls] at htm
  have hx : formatArgsMacro E format args = .ok (expansionOf args tree) := by
    obtain ⟨rfl, hd, hs⟩ := ht
    rcases formatArgsMacro_tree hE args tree hd hs with ⟨-, hx⟩ | ⟨hn, -⟩
    · exact hx
    · exact absurd ⟨hpf, hr, hau⟩ hn
  have hpres : ∀ n ∈ (expansionOf args tree).implicit, P.scope.lookup ⟨n, .callers⟩ = some (.arg (vars' n)) := by
    intro n hn
    obtain ⟨before, spec, after, hb, hl⟩ := mem_captures _ tree n hn
    obtain ⟨impls, hi, ht⟩ := htm before _ spec after hb
    simp only [valueFor, lastNamed_meaning P.types _ n hl, Option.getD_none] at hi
    cases hi
    rw [P.lookup n]
    rcases hvn : P.vars n with _ | v
    · simp only [vars', hvn] at ht
      cases ht
    · simp only [vars', hvn]
      rfl
  rw [hx] at h48
  have hok : (Tokens.formatArgsCall E toks = .ok t ∧ formatArgsCall E toks = .ok (expansionOf args tree)) ∨
      (Tokens.formatArgsNlCall E toks = .ok t ∧ formatArgsNlCall E toks = .ok (expansionOf args tree)) := by
    rcases hc with ⟨h1, h2⟩ | ⟨h1, h2⟩
    · exact .inl ⟨h1.symm.trans hcall, h2.symm.trans h48⟩
    · exact .inr ⟨h1.symm.trans hcall, h2.symm.trans h48⟩
  obtain ⟨out, h1, h2⟩ := eval_mapArgs hE ⟨P.meaning, fun n => pureExpr (vars' n).value⟩ (fun n => (vars' n).value)
    (fun _ => rfl) format _ _ hx st
  refine ⟨t, out, hcall, ?_, ?_⟩
  · rw [C74_names_partial E _ t _ hok P.scope P.callSite P.preludeSome P.preludeDefault P.exprs P.meaning P.types P.exprsMean
      vars' hpres ((implements_iff _ tree hr P.types vars').2 htm) st]
    simp only at h2
    rw [h2]
  · rw [← hvalues]
    exact h1

theorem whole {E : Env} (hE : E.Lawful) (P : Place Y St) (C : Call Y) (nl : Bool) (tree : List PieceSyn)
    (h : Rules E P C tree) (st : St) :
    ∃ t out, madeOf nl E C.tokens = .ok t ∧
      eval P.exprs P.scope t st = some (.arguments out, (evalArgs (C.args.map (argMeaning P.meaning)) st).2) ∧
      formatArgs E (withEnd nl C.format) (evalArgs (C.args.map (argMeaning P.meaning)) st).1 P.value = .ok out := by
  obtain ⟨ht, hpf, hr, hau, htm⟩ := h
  have h48 := C48_read_as_written E C.lead C.segs C.format C.written C.readsAs C.trailing
  cases nl with
  | false => exact whole_core hE P C.args C.tokens C.format _ _ (.inl ⟨rfl, rfl⟩) h48.1 tree ht hpf hr hau htm st
  | true =>
    obtain ⟨rfl', hd, hs⟩ := ht
    obtain ⟨h1, h2⟩ := addNl_good E tree hd hs
    obtain ⟨h5, h6⟩ := (addNl_accept _ tree).2 ⟨hr, hau⟩
    exact whole_core hE P C.args C.tokens (C.format ++ ['\n']) _ _ (.inr ⟨rfl, rfl⟩)
      (h48.2.trans (by rw [formatArgsNlMacro_eq]; rfl)) (addNl tree) ⟨by rw [addNl_print, rfl'], h1, h2⟩ hpf h5 h6
      ((addNl_traits _ _ tree).2 htm) st

/-- What the pieces write, with the end of the line. -/
theorem whole_denote {E : Env} (hE : E.Lawful) (nl : Bool) (format : Str) (args : List (MacroArg ArgVal)) (scope : Str → ArgVal)
    (out : Arguments) (h : formatArgs E (withEnd nl format) args scope = .ok out) (tree : List PieceSyn)
    (ht : Reads E format tree) :
    (denote out).2 = (treeOutput args scope Style.default [] tree).2 ∧
    ((denote out).2 = .ok () → flatten (denote out).1 = flatten (treeOutput args scope Style.default [] tree).1 ++ lineEnd nl) := by
  cases nl with
  | false =>
    have := (C46_end_to_end hE format args scope out h).2 tree ht Style.default FormatterArgs.default
    rw [show denote out = treeOutput args scope Style.default [] tree from this]
    exact ⟨rfl, fun _ => (List.append_nil _).symm⟩
  | true =>
    obtain ⟨rfl, hd, hs⟩ := ht
    obtain ⟨h1, h2⟩ := addNl_good E tree hd hs
    have := (C46_end_to_end hE _ args scope out h).2 (addNl tree) ⟨addNl_print tree, h1, h2⟩ Style.default FormatterArgs.default
    rw [show denote out = treeOutput args scope Style.default [] (addNl tree) from this]
    obtain ⟨u, ⟨rfl, e⟩ | ⟨s, rfl, e⟩⟩ := addNl_split tree
    · rw [e, treeOutput_last_text]
      refine ⟨rfl, fun hok => ?_⟩
      rw [if_pos hok, flatten_append]
      rfl
    · rw [e, treeOutput_last_text, treeOutput_last_text]
      refine ⟨rfl, fun hok => ?_⟩
      simp only [if_pos hok, flatten_append, List.append_assoc]
      simp [flatten, paint, lineEnd]

/-- C77: a call that follows the rules compiles, evaluates its arguments once each, in the order written, and makes a value
`out` such that `format!` of it is what the format string says of the values of the arguments, and a newline if it is one of
the macros that end the line: as plain text, on a page in a browser, and on a terminal; on the latter exactly if the text does
not command it otherwise and it does not have bold and faint at once. If a `Display` implementation does not return `Ok`,
they all panic. -/
theorem C77_format {E : Env} (hE : E.Lawful) (P : Place Y St) (C : Call Y) (nl : Bool) (tree : List PieceSyn)
    (h : Rules E P C tree) (st : St) :
    let args := evalArgs (C.args.map (argMeaning P.meaning)) st
    ∃ t out, (if nl then Tokens.formatArgsNlCall E C.tokens else Tokens.formatArgsCall E C.tokens) = .ok t ∧
      eval P.exprs P.scope t st = some (.arguments out, args.2) ∧
      (∀ log, treeOutput args.1 P.value Style.default [] tree = (log, .ok ()) →
        let seen := flatten log ++ lineEnd nl
        plainFormat out = .ok (text seen) ∧
        (∃ page, htmlFormat out = .ok page ∧ ∀ names : Names, names.Standard →
          shows names page = some (visible seen) ∧
          ∀ colors : Css.Colors, colors.Standard → ∀ base, Css.looks names colors base page =
            some ((visible seen).map fun x => (x.1, Css.lookOf base x.2))) ∧
        (∃ s, ansiFormat out = .ok s ∧ ∀ kind, (Screen.fresh.feed kind s).events = seen.map expected ↔
          (∀ x ∈ seen, x.1 ∉ acts kind) ∧ (kind.boldFaint = .exclusive ∨ ¬ Muddled seen))) ∧
      ((treeOutput args.1 P.value Style.default [] tree).2 ≠ .ok () →
        plainFormat out = .panic ∧ htmlFormat out = .panic ∧ ansiFormat out = .panic) := by
  intro args
  obtain ⟨t, out, hcall, h2, h1⟩ := whole hE P C nl tree h st
  obtain ⟨d1, d2⟩ := whole_denote hE nl C.format args.1 P.value out h1 tree h.reads
  refine ⟨t, out, hcall, h2, fun log hlog => ?_, fun hne => ?_⟩
  · simp only [hlog] at d1 d2
    have hf := d2 d1
    have hw : writes out.f Style.default FormatterArgs.default = ((denote out).1, .ok ()) := Prod.ext rfl d1
    refine ⟨?_, ⟨htmlRender (flatten (denote out).1), ?_, fun names hn => ?_⟩,
      ⟨ansiRender (flatten (denote out).1), ?_, fun kind => ?_⟩⟩
    · rw [plainFormat_eq, d1, hf]; rfl
    · rw [htmlFormat_eq, d1]; rfl
    · have hfin := (htmlFinished_exists stringSink stringSink_accepting StdString.new (denote out).1).2
      rw [← hf]
      exact ⟨C70_shows names hn stringSink StdString.new _ _ (.inl hfin), fun colors hc base =>
        C73_looks names hn colors hc stringSink StdString.new _ _ (.inl hfin) base⟩
    · rw [ansiFormat_eq, d1]; rfl
    · rw [← hf]
      exact C71_exact stringSink StdString.new _ _
        (.inr (ansiFinished_exists stringSink stringSink_accepting StdString.new (denote out).1).2) kind
  · obtain ⟨-, h3, h4, h5⟩ := (C43_format_panics_iff out).2 (by
      rw [show writes out.f Style.default FormatterArgs.default = denote out from rfl, d1]; exact hne)
    exact ⟨h3, h5, h4⟩

/-- C77: `write!` or `writeln!` of it to a byte stream through `io::Ansi`, and `finish`, arrive at the stream as the UTF-8 of
a string with which a terminal does the same, through any number of partial and interrupted writes. -/
theorem C77_write_io {T : Type} [StdIoWrite T] (k : IoSink T) (hn : ReliableStream T)
    (hf : KeepsGoing T)
    {E : Env} (hE : E.Lawful) (P : Place Y St) (C : Call Y) (nl : Bool) (tree : List PieceSyn) (h : Rules E P C tree) (st : St) :
    let args := evalArgs (C.args.map (argMeaning P.meaning)) st
    ∃ t out, (if nl then Tokens.formatArgsNlCall E C.tokens else Tokens.formatArgsCall E C.tokens) = .ok t ∧
      eval P.exprs P.scope t st = some (.arguments out, args.2) ∧
      ∀ log, treeOutput args.1 P.value Style.default [] tree = (log, .ok ()) → ∀ stream : T,
        let seen := flatten log ++ lineEnd nl
        ∃ s enough, ∀ fuel, enough ≤ fuel → ∃ a b : IoAnsi fuel T,
          IoWrite.writeFmt out (IoAnsi.new stream) = (.ok (), a) ∧ IoAnsi.finish a = (.ok (), b) ∧
          k.delivered b.inner = k.delivered stream ++ utf8 s ∧
          ∀ kind, (Screen.fresh.feed kind s).events = seen.map expected ↔
            (∀ x ∈ seen, x.1 ∉ acts kind) ∧ (kind.boldFaint = .exclusive ∨ ¬ Muddled seen) := by
  intro args
  obtain ⟨t, out, hcall, h2, h1⟩ := whole hE P C nl tree h st
  obtain ⟨d1, d2⟩ := whole_denote hE nl C.format args.1 P.value out h1 tree h.reads
  refine ⟨t, out, hcall, h2, fun log hlog stream => ?_⟩
  simp only [hlog] at d1 d2
  have hfl := d2 d1
  obtain ⟨enough, hfin⟩ := C26_finishes k hn hf out (ansiRender (flatten (denote out).1)) (by rw [ansiFormat_eq, d1]; rfl) stream
  refine ⟨ansiRender (flatten (denote out).1), enough, fun fuel hle => ?_⟩
  obtain ⟨a, b, h3, h4, h5⟩ := hfin fuel hle
  refine ⟨a, b, h3, h4, h5, fun kind => ?_⟩
  rw [← hfl]
  exact C71_exact stringSink StdString.new _ _
    (.inr (ansiFinished_exists stringSink stringSink_accepting StdString.new (denote out).1).2) kind

/-- C77: `write!` of it on any writer, which may fail at any time, does what the pieces of the format string (for `writeln!`,
of the format string with a newline at the end) say, one after the other, until the first failure. -/
theorem C77_write_any {W : Type} [Write W] {E : Env} (hE : E.Lawful) (P : Place Y St) (C : Call Y) (nl : Bool)
    (tree : List PieceSyn) (h : Rules E P C tree) (st : St) :
    let args := evalArgs (C.args.map (argMeaning P.meaning)) st
    ∃ t out, (if nl then Tokens.formatArgsNlCall E C.tokens else Tokens.formatArgsCall E C.tokens) = .ok t ∧
      eval P.exprs P.scope t st = some (.arguments out, args.2) ∧
      ∃ whole, Reads E (if nl then C.format ++ ['\n'] else C.format) whole ∧
        ∀ w : W, Write.writeFmt out w = treeRun args.1 P.value Style.default [] whole w := by
  intro args
  obtain ⟨t, out, hcall, h2, h1⟩ := whole hE P C nl tree h st
  have hread : Reads E (withEnd nl C.format) (if nl then addNl tree else tree) := by
    cases nl with
    | false => exact h.reads
    | true =>
      obtain ⟨e, hd, hs⟩ := h.reads
      obtain ⟨h1, h2⟩ := addNl_good E tree hd hs
      exact ⟨by rw [if_pos rfl, addNl_print, e]; rfl, h1, h2⟩
  refine ⟨t, out, hcall, h2, _, hread, fun w => ?_⟩
  simp only [Write.writeFmt, C46_any_writer hE _ args.1 P.value out h1 _ hread W (Formatter.new w)]
  rfl

/-- C77: a call that does not follow the rules does not compile. -/
theorem C77_else_rejected {E : Env} (hE : E.Lawful) (P : Place Y St) (C : Call Y) (nl : Bool)
    (h : ¬ ∃ tree, Rules E P C tree) (st : St) (t : RExpr (SynExpr Y))
    (ht : (if nl then Tokens.formatArgsNlCall E C.tokens else Tokens.formatArgsCall E C.tokens) = .ok t) :
    eval P.exprs P.scope t st = none := by
  rcases hr : eval P.exprs P.scope t st with _ | r
  · rfl
  · exfalso
    apply h
    have key : ∃ tree, Reads E C.format tree ∧ PositionalFirst C.args ∧ RefsOk C.args tree ∧ AllUsed C.args tree ∧
        TraitsMet (C.args.map (argMeaning P.types)) P.varTypes tree := by
      cases nl with
      | false => exact (C76_compiles_iff hE C.lead C.segs C.format C.written C.readsAs C.trailing P.scope P.callSite P.preludeSome
          P.preludeDefault P.exprs P.meaning P.types P.exprsMean P.vars P.lookup st).1 ⟨t, r, ht, hr⟩
      | true => exact (C76_compiles_nl_iff hE C.lead C.segs C.format C.written C.readsAs C.trailing P.scope P.callSite P.preludeSome
          P.preludeDefault P.exprs P.meaning P.types P.exprsMean P.vars P.lookup st).1 ⟨t, r, ht, hr⟩
    obtain ⟨tree, h1, h2, h3, h4, h5⟩ := key
    exact ⟨tree, h1, h2, h3, h4, h5⟩

/-! ## Examples -/

/-- A place with a variable `x`. -/
def samplePlace : Place Nat (List Str) where
  scope := oneVariable
  callSite := oneVariable_place.1
  preludeSome := oneVariable_place.2.1
  preludeDefault := oneVariable_place.2.2
  exprs := someExprs
  meaning := sampleMeaning.expr
  types := fun _ => onlyDisplay
  exprsMean := fun _ _ => rfl
  vars := fun n => if n = str "x" then some ⟨textArg (str "mine"), onlyDisplay⟩ else none
  lookup := oneVariable_lookup

/-- `$crate::format_args!("{x:(bold)}{a}{}", one, a = two)` -/
def sampleCall : Call Nat where
  lead := false
  segs := [⟨str "$crate", true⟩]
  format := str "{x:(bold)}{a}{}"
  written := sampleArgs
  readsAs := sampleArgs_read
  trailing := false

/-- The hypothesis of C77 is met by this call in this place. -/
example : ∃ tree, Rules asciiEnv samplePlace sampleCall tree := by
  refine Classical.byContradiction fun hn => ?_
  have h : (runAt oneVariable hygieneCall).isSome = true := by decide +kernel
  unfold runAt at h
  split at h
  · cases h
  · rename_i t ht
    have hnone := C77_else_rejected asciiEnv_lawful samplePlace sampleCall false hn [] t ht
    rw [show eval samplePlace.exprs samplePlace.scope t [] = eval someExprs oneVariable t [] from rfl] at hnone
    rw [hnone] at h
    cases h

/-- And C77_else_rejected by this one: there is no variable `y`. -/
example : ¬ ∃ tree, Rules asciiEnv samplePlace { sampleCall with format := str "{y}{a}{}" } tree := by
  rintro ⟨tree, h⟩
  obtain ⟨t, out, h1, h2, -⟩ := C77_format asciiEnv_lawful samplePlace _ false tree h []
  have h3 : runAt oneVariable (callOf "{y}{a}{}") = none := by decide +kernel
  unfold runAt at h3
  rw [show Tokens.formatArgsCall asciiEnv (callOf "{y}{a}{}") = .ok t from h1] at h3
  simp only at h3
  rw [show eval someExprs oneVariable t [] = _ from h2] at h3
  cases h3

/-- What is made of it. -/
example : (match Tokens.formatArgsCall asciiEnv hygieneCall with
    | .error _ => none
    | .ok t =>
      match eval someExprs oneVariable t [] with
      | some (.arguments a, _) => some (htmlFormat a, ansiFormat a, plainFormat a)
      | _ => none) =
    some (.ok (str "<span style=font-weight:bolder>mine</span>yx"), .ok (str "\x1b[1mmine\x1b[0myx"), .ok (str "mineyx")) := by
  decide +kernel

end Stylish.Props
