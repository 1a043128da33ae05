import Verif.Spec.StdFormat
import Verif.Props.Macro
import Verif.Props.Ansi
/-
Agreement with std's `format!`: C49.
-/

namespace Stylish.Props

open Nom Format Spec Spec.Syntax

theorem stdView_options (s : SpecSyn) : stdView s.ty.stdKind s.options = s.stdOptions := by
  cases h : s.ty <;> simp [stdView, SpecSyn.stdOptions, SpecSyn.options, Ty.stdKind, Ty.debugHex, h]

theorem argOutput_std (v : ArgVal) (s : SpecSyn) (st : Style) (h : s.ty ≠ .stylish) :
    argOutput v s st =
      ((stdWrites (v.std s.ty.trait s.stdOptions)).1.map (fun x => (x, s.style st)),
        (stdWrites (v.std s.ty.trait s.stdOptions)).2) := by
  rw [← stdView_options]
  unfold argOutput
  split
  · rename_i e; exact absurd e h
  · rfl

/-- The pieces as chunks, all in the surrounding style restyled by their attributes. -/
theorem treeOutput_std (args : List (MacroArg ArgVal)) (scope : Str → ArgVal) (st : Style)
    (before t : List PieceSyn) (h : StdOnly t) :
    (∃ log s, treeOutput args scope st before t = (log, .ok ()) ∧
      stdFormat args scope before t = some s ∧ log.flatMap Prod.fst = s ∧
      (NoAttrs t → ∀ ch ∈ log, ch.2 = st)) ∨
    ((treeOutput args scope st before t).2 ≠ .ok () ∧ stdFormat args scope before t = none) := by
  induction t generalizing before with
  | nil => exact Or.inl ⟨[], [], rfl, rfl, rfl, by simp⟩
  | cons p rest ih =>
    have ih := ih (before ++ [p]) (fun r s hm => h r s (by simp [hm]))
    have lit : ∀ s : Str, pieceOutput args scope before st p = ([(s, st)], .ok ()) →
        stdPiece args scope before p = some s →
        (∃ log s, treeOutput args scope st before (p :: rest) = (log, .ok ()) ∧
          stdFormat args scope before (p :: rest) = some s ∧ log.flatMap Prod.fst = s ∧
          (NoAttrs (p :: rest) → ∀ ch ∈ log, ch.2 = st)) ∨
        ((treeOutput args scope st before (p :: rest)).2 ≠ .ok () ∧
          stdFormat args scope before (p :: rest) = none) := by
      intro s h1 h2
      rcases ih with ⟨log, u, g1, g2, g3, g4⟩ | ⟨g1, g2⟩
      · left
        refine ⟨(s, st) :: log, s ++ u, ?_, ?_, by simp [g3], ?_⟩
        · simp only [treeOutput, h1, g1]; rfl
        · simp [stdFormat, h2, g2]
        · intro hn ch hc
          rcases List.mem_cons.1 hc with rfl | hc
          · rfl
          · exact g4 (fun r s hm => hn r s (by simp [hm])) ch hc
      · right
        refine ⟨?_, by simp [stdFormat, h2, g2]⟩
        simp only [treeOutput, h1]
        exact g1
    cases p with
    | text s => exact lit s rfl rfl
    | openBrace => exact lit _ rfl rfl
    | closeBrace => exact lit _ rfl rfl
    | arg ref spec =>
      cases hv : valueFor args scope before ref with
      | none =>
        right
        have h1 : pieceOutput args scope before st (.arg ref spec) = ([], .panic) := by
          simp only [pieceOutput, hv]
        exact ⟨by simp [treeOutput, h1], by simp [stdFormat, stdPiece, hv]⟩
      | some v =>
        have hty := h ref spec (by simp)
        have h1 : pieceOutput args scope before st (.arg ref spec) = argOutput v (specOf spec) st := by
          simp only [pieceOutput, hv]
        rw [argOutput_std v _ st hty] at h1
        have h2 : stdPiece args scope before (.arg ref spec) =
            stdText (v.std (specOf spec).ty.trait (specOf spec).stdOptions) := by
          simp [stdPiece, hv]
        unfold stdText at h2
        generalize hout : stdWrites (v.std (specOf spec).ty.trait (specOf spec).stdOptions) = out at h1 h2
        obtain ⟨strs, r⟩ := out
        by_cases hr : r = .ok ()
        · subst hr
          simp only [if_true] at h2
          rcases ih with ⟨log, u, g1, g2, g3, g4⟩ | ⟨g1, g2⟩
          · left
            refine ⟨strs.map (fun x => (x, (specOf spec).style st)) ++ log, strs.flatten ++ u, ?_, ?_, ?_, ?_⟩
            · simp only [treeOutput, h1, g1]
            · simp [stdFormat, h2, g2]
            · rw [List.flatMap_append, g3]
              have e : ∀ (l : List Str) (q : Style), (l.map (fun x => (x, q))).flatMap Prod.fst = l.flatten := by
                intro l q
                induction l with
                | nil => rfl
                | cons y l ihl => rw [List.map_cons, List.flatMap_cons, ihl, List.flatten_cons]
              rw [e]
            · intro hn ch hc
              rcases List.mem_append.1 hc with hc | hc
              · obtain ⟨x, -, rfl⟩ := List.mem_map.1 hc
                have ha := hn ref spec (by simp)
                have hd : (specOf spec).attrList = [] := by simp [SpecSyn.attrList, ha]
                simp only [SpecSyn.style, hd]
                rfl
              · exact g4 (fun r s hm => hn r s (by simp [hm])) ch hc
          · right
            refine ⟨?_, by simp [stdFormat, h2, g2]⟩
            simp only [treeOutput, h1]
            exact g1
        · right
          rw [if_neg hr] at h2
          refine ⟨?_, by simp [stdFormat, h2]⟩
          rcases r with u | u | _ | _
          · exact absurd rfl hr
          · simp [treeOutput, h1]
          · simp [treeOutput, h1]
          · simp [treeOutput, h1]

/-- C31, C32 from the format string on: formatting one placeholder with a std trait, on any writer and with
any surrounding style and options, runs the argument's implementation of that trait with exactly the options
written, each string going to the writer in the surrounding style restyled by the attributes. -/
theorem C31_as_written {E : Env} (hE : E.Lawful) (format : Str) (args : List (MacroArg ArgVal))
    (scope : Str → ArgVal) (x : Arguments) (h : formatArgs E format args scope = .ok x)
    (ref : Option ArgRef) (s : SpecSyn) (ht : Reads E format [.arg ref (some s)]) (hs : s.ty ≠ .stylish)
    {W : Type} [Write W] (st : Style) (a : FormatterArgs) (w : W) :
    ∃ v, valueFor args scope [] ref = some v ∧
      Formatter.writeFmt x ⟨st, a, w⟩ =
        ((stdRun (fun text => Write.writeStr text (s.style st)) (v.std s.ty.trait s.stdOptions) w).1,
          ⟨st, a, (stdRun (fun text => Write.writeStr text (s.style st))
            (v.std s.ty.trait s.stdOptions) w).2⟩) := by
  have hw := C46_any_writer hE format args scope x h _ ht W ⟨st, a, w⟩
  have hv : ∃ v, valueFor args scope [] ref = some v := by
    obtain ⟨rfl, hd, hsup⟩ := ht
    rcases formatArgs_tree hE args scope _ hd hsup with ⟨⟨-, hr, -⟩, -⟩ | ⟨-, e, he⟩
    · have hr := (hr [] ref (some s) [] rfl).1
      rcases ref with _ | ref
      · exact ⟨_, List.getElem?_eq_getElem hr⟩
      · cases ref with
        | index ds => exact ⟨_, List.getElem?_eq_getElem hr⟩
        | name n => exact ⟨_, rfl⟩
    · rw [he] at h; cases h
  obtain ⟨v, hv⟩ := hv
  refine ⟨v, hv, ?_⟩
  have e : treeRun args scope st [] [.arg ref (some s)] w =
      stdRun (fun text => Write.writeStr text (s.style st)) (v.std s.ty.trait s.stdOptions) w := by
    rw [← stdView_options]
    have e1 : pieceRun args scope [] st (.arg ref (some s)) w =
        stdRun (fun text => Write.writeStr text (s.style st))
          (v.std s.ty.trait (stdView s.ty.stdKind s.options)) w := by
      have e2 : pieceRun args scope [] st (.arg ref (some s)) w = argRun v s st w := by
        simp only [pieceRun, hv, specOf, Option.getD_some]
      rw [e2]
      unfold argRun
      split
      · rename_i e; exact absurd e hs
      · rfl
    unfold treeRun
    rw [e1]
    rcases stdRun (fun text => Write.writeStr text (s.style st))
          (v.std s.ty.trait (stdView s.ty.stdKind s.options)) w with ⟨r, w'⟩
    cases r <;> rfl
  rw [hw, e]

/-- C32 from the format string on: whatever an argument's std formatting writes for a placeholder - padding,
signs, pieces of text - arrives in one style: the surrounding style restyled by the attributes. -/
theorem C32_as_written {E : Env} (hE : E.Lawful) (format : Str) (args : List (MacroArg ArgVal))
    (scope : Str → ArgVal) (x : Arguments) (h : formatArgs E format args scope = .ok x)
    (ref : Option ArgRef) (s : SpecSyn) (ht : Reads E format [.arg ref (some s)]) (hs : s.ty ≠ .stylish)
    (st : Style) (a : FormatterArgs) (log : List Chunk) :
    ∃ texts : List Str, (Formatter.writeFmt x ⟨st, a, LogWriter.mk log⟩).2.write.log =
      log ++ texts.map (·, s.style st) := by
  obtain ⟨v, -, e⟩ := C31_as_written hE format args scope x h ref s ht hs st a (LogWriter.mk log)
  rw [e]
  have key : ∀ (p : StdProg) (w : LogWriter), ∃ texts : List Str,
      (stdRun (fun text => Write.writeStr text (s.style st)) p w).2.log =
        w.log ++ texts.map (·, s.style st) := by
    intro p
    induction p with
    | done r => intro w; exact ⟨[], by simp [stdRun]⟩
    | panic => intro w; exact ⟨[], by simp [stdRun]⟩
    | write t k ih =>
      intro w
      obtain ⟨ts, h⟩ := ih .ok ⟨w.log ++ [(t, s.style st)]⟩
      exact ⟨t :: ts, h.trans (by simp)⟩
  exact key _ _

/-- An argument that writes the options it sees. -/
def optionsArg : ArgVal :=
  ⟨fun tr o => .write (str (if tr = .Debug ∧ o.debug ∧ o.debugHex = some .Lower then "x?" else "-")) fun _ =>
    .write (str (if o.align = some .Right ∧ o.sign = some .Plus ∧ o.alternate ∧ o.zero then "all" else "-")) fun _ =>
    .write (List.replicate (o.width.getD 0) o.fill ++ List.replicate (o.precision.getD 0) 'p') .done,
    .done .ok⟩

/-- The hypotheses of `C31_as_written` are met by `{:>+#05.2(fg=red)x?}`, and what it says there. -/
example :
    let s : SpecSyn := ⟨some (none, .Right), some .Plus, true, true, some (.lit ['5']),
      some (.count (.lit ['2'])), some ⟨[.fg .red], false⟩, .lowerHexDebug⟩
    Reads asciiEnv (str "{:>+#05.2(fg=red)x?}") [.arg none (some s)] ∧
    (formatArgs asciiEnv (str "{:>+#05.2(fg=red)x?}") [.positional optionsArg] noScope).toOption.map
      (fun x => writes (Display.fmt x) ⟨.Default, .Blue, .Bold⟩ .default) =
      some ([(str "x?", ⟨.Red, .Blue, .Bold⟩), (str "all", ⟨.Red, .Blue, .Bold⟩),
        (str "     pp", ⟨.Red, .Blue, .Bold⟩)], .ok ()) := by
  refine ⟨⟨by decide +kernel, ?_, ?_⟩, by decide +kernel⟩
  · simp [Documented, PieceSyn.Documented, SpecSyn.Documented, CountSyn.Documented, PrecisionSyn.Documented,
      Numeral, Merged, AttrsSyn.Documented, ArgRef.Documented, Ident]
    try decide +kernel
  · simp [Supported, PieceSyn.Supported, SpecSyn.Supported, CountSyn.Supported, ArgRef.Supported,
      NoFalseFill]
    try decide +kernel

/-- C49: `plain::format!` with std traits only gives what std's `format!` gives (with the attributes
removed): the same string, or a panic. -/
theorem C49_plain_is_std {E : Env} (hE : E.Lawful) (format : Str) (args : List (MacroArg ArgVal))
    (scope : Str → ArgVal) (x : Arguments) (h : formatArgs E format args scope = .ok x)
    (t : List PieceSyn) (ht : Reads E format t) (hstd : StdOnly t) :
    plainFormat x = orPanic (stdFormat args scope [] t) := by
  have hw := (C46_end_to_end hE format args scope x h).2 t ht Style.default FormatterArgs.default
  have hw : denote x = treeOutput args scope Style.default [] t := hw
  rw [plainFormat_eq, hw]
  rcases treeOutput_std args scope Style.default [] t hstd with ⟨log, s, h1, h2, h3, -⟩ | ⟨h1, h2⟩
  · have e : text (flatten log) = log.flatMap Prod.fst := by
      simp [text, flatten, paint, List.map_flatMap, Function.comp_def]
    rw [h1, h2, e, h3]
    rfl
  · rw [h2]
    rcases hr : (treeOutput args scope Style.default [] t).2 with u | u | _ | _
    · exact absurd hr h1
    · rfl
    · rfl
    · rfl

/-- C49: without attributes, `ansi::format!` too gives what std's `format!` gives. -/
theorem C49_ansi_is_std {E : Env} (hE : E.Lawful) (format : Str) (args : List (MacroArg ArgVal))
    (scope : Str → ArgVal) (x : Arguments) (h : formatArgs E format args scope = .ok x)
    (t : List PieceSyn) (ht : Reads E format t) (hstd : StdOnly t) (hna : NoAttrs t) :
    ansiFormat x = orPanic (stdFormat args scope [] t) := by
  have hw := (C46_end_to_end hE format args scope x h).2 t ht Style.default FormatterArgs.default
  have hw : denote x = treeOutput args scope Style.default [] t := hw
  rw [ansiFormat_eq, hw]
  rcases treeOutput_std args scope Style.default [] t hstd with ⟨log, s, h1, h2, h3, h4⟩ | ⟨h1, h2⟩
  · have key : ∀ u : Styled, (∀ y ∈ u, y.2 = Style.default) →
        renderWith ansiSwitch plainEnc Style.default u = text u ∧
        lastStyle Style.default u = Style.default := by
      intro u
      induction u with
      | nil => intro _; exact ⟨rfl, rfl⟩
      | cons y u ih =>
        intro hy
        obtain ⟨c, st⟩ := y
        have : st = Style.default := hy (c, st) (by simp)
        subst this
        obtain ⟨i1, i2⟩ := ih (fun z hz => hy z (by simp [hz]))
        refine ⟨?_, by simpa [lastStyle] using i2⟩
        simp only [renderWith, ansiSwitch_self, plainEnc, List.nil_append, i1]
        rfl
    have hst : ∀ y ∈ flatten log, y.2 = Style.default := by
      intro y hy
      simp only [flatten, List.mem_flatMap, paint, List.mem_map] at hy
      obtain ⟨ch, hch, c, -, rfl⟩ := hy
      exact h4 hna ch hch
    obtain ⟨k1, k2⟩ := key _ hst
    have e : text (flatten log) = log.flatMap Prod.fst := by
      simp [text, flatten, paint, List.map_flatMap, Function.comp_def]
    rw [h1, h2, ansiRender]
    simp only [k1, k2, ansiSwitch_self, List.append_nil, e, h3]
    rfl
  · rw [h2]
    rcases hr : (treeOutput args scope Style.default [] t).2 with u | u | _ | _
    · exact absurd hr h1
    · rfl
    · rfl
    · rfl

/-- A number-like argument: pads to the width, with zeros if asked. -/
def padArg (s : Str) : ArgVal :=
  ⟨fun _ o => .write (List.replicate ((o.width.getD 0) - s.length) (if o.zero then '0' else o.fill) ++ s) .done,
    .done .ok⟩

/-- The tree of `a{{{0:04(bold)}{n:3}`. -/
def padTree : List PieceSyn :=
  [.text ['a'], .openBrace,
    .arg (some (.index ['0'])) (some { zero := true, width := some (.lit ['4']), attrs := some ⟨[.bold], false⟩ }),
    .arg (some (.name ['n'])) (some { width := some (.lit ['3']) })]

/-- The hypotheses are met by `a{{{0:04(bold)}{n:3}`, where std's `format!` gives `a{0077  5`. -/
example :
    let args : List (MacroArg ArgVal) := [.positional (padArg (str "77")), .named (str "n") (padArg (str "5"))]
    Reads asciiEnv (str "a{{{0:04(bold)}{n:3}") padTree ∧ StdOnly padTree ∧
    stdFormat args noScope [] padTree = some (str "a{0077  5") ∧
    (formatArgs asciiEnv (str "a{{{0:04(bold)}{n:3}") args noScope).toOption.map plainFormat =
      some (.ok (str "a{0077  5")) := by
  refine ⟨⟨by decide +kernel, ?_, ?_⟩, ?_, by decide +kernel, by decide +kernel⟩
  · simp [Documented, padTree, PieceSyn.Documented, SpecSyn.Documented, CountSyn.Documented, Numeral, Merged,
      PieceSyn.isText, AttrsSyn.Documented, ArgRef.Documented, Ident]
    exact ⟨'n', [], ⟨rfl, rfl⟩, Or.inl (by decide +kernel), by simp⟩
  · simp [Supported, padTree, PieceSyn.Supported, SpecSyn.Supported, CountSyn.Supported, ArgRef.Supported,
      NoFalseFill]
    decide +kernel
  · intro ref spec hm
    simp [padTree] at hm
    rcases hm with ⟨rfl, rfl⟩ | ⟨rfl, rfl⟩ <;> simp [specOf]

end Stylish.Props
