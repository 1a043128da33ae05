import Verif.Props.MacroStyle
import Verif.Props.MacroNl
import Verif.Props.Text
/-
Properties of the user facing functions: C12 (with the `{:s}` placeholder), C41 (per backend), C44, C45,
C46 (per backend).
-/

namespace Stylish.Props

open Nom Format Spec Spec.Syntax

/-! ## C44 -/

/-- The tree of `{:s}`. -/
def selfTree : List PieceSyn := [.arg none (some { ty := .stylish })]

theorem selfTree_reads (E : Env) : Reads E (str "{:s}") selfTree := by
  refine ⟨by decide +kernel, ⟨?_, trivial⟩, ⟨?_, ?_⟩⟩
  · simp [selfTree, PieceSyn.Documented, SpecSyn.Documented]
  · simp [selfTree, PieceSyn.Supported, SpecSyn.Supported]
  · exact ⟨by simp [PieceSyn.emptySpec, SpecSyn.print, Ty.print], trivial⟩

/-- `format_args!("{:s}", v)` compiles and writes what `v` writes in the surrounding style with default
options. -/
theorem formatArgs_self {E : Env} (hE : E.Lawful) (v : ArgVal) (scope : Str → ArgVal) :
    ∃ x, formatArgs E (str "{:s}") [.positional v] scope = .ok x ∧
      ∀ st a, writes x.f st a = writes v.stylish st .default := by
  obtain ⟨hp, hd, hs⟩ := selfTree_reads E
  have hr : RefsOk [MacroArg.positional v] selfTree := by
    intro before ref spec after e
    have hb : before = [] ∧ PieceSyn.arg ref spec = .arg none (some { ty := .stylish }) ∧ after = [] := by
      unfold selfTree at e
      cases before with
      | nil => obtain ⟨h1, h2⟩ := List.cons.inj e; exact ⟨rfl, h1.symm, h2.symm⟩
      | cons q r => simp at e
    obtain ⟨rfl, e2, rfl⟩ := hb
    obtain ⟨rfl, rfl⟩ := PieceSyn.arg.inj e2
    exact ⟨by simp [RefExists, bareCount, positionals], ⟨by simp [specOf], by simp [specOf]⟩⟩
  have hu : AllUsed [MacroArg.positional v] selfTree := by
    refine ⟨fun i hi => ?_, by simp [nameds]⟩
    have : i = 0 := by simp [positionals] at hi; exact hi
    subst this
    exact ⟨[], none, _, [], rfl, Or.inl ⟨rfl, rfl⟩⟩
  rcases formatArgs_tree hE [.positional v] scope selfTree hd hs with ⟨-, e⟩ | ⟨h, -⟩
  · rw [hp] at e
    refine ⟨_, e, fun st a => ?_⟩
    have h1 := (C46_end_to_end hE _ _ scope _ e).2 selfTree ⟨hp, hd, hs⟩ st a
    have h2 : treeOutput [.positional v] scope st [] selfTree =
        andThen (writes v.stylish st .default) ([], .ok ()) := by
      rw [selfTree, treeOutput_cons]
      have e1 : pieceOutput [.positional v] scope [] st (.arg none (some { ty := .stylish })) =
          writes v.stylish st .default := by
        show writes v.stylish (SpecSyn.style { ty := .stylish } st) _ = _
        rfl
      rw [e1]
      rfl
    rw [show (Display.fmt (⟨treeProg [.positional v] scope selfTree⟩ : Arguments)) = treeProg [.positional v] scope selfTree from rfl] at h1
    rw [h1, h2]
    rcases writes v.stylish st .default with ⟨l, _ | _ | _ | _⟩ <;> simp [andThen]
  · exact absurd ⟨⟨[v], [], rfl⟩, hr, hu⟩ h

/-- C44: the `to_*_string` methods give what formatting the value itself from the default style into the
corresponding fresh writer gives. -/
theorem C44_to_string {E : Env} (hE : E.Lawful) (d : Disp) :
    toAnsiString E d = .ok (ansiFormat ⟨d⟩) ∧
    toHtmlString E d = .ok (htmlFormat ⟨d⟩) ∧
    toPlainString E d = .ok (plainFormat ⟨d⟩) ∧
    toStylishString E d = .ok (coreFormat ⟨d⟩) := by
  obtain ⟨x, hx, hw⟩ := formatArgs_self hE ⟨fun _ _ => .done .ok, d⟩ (fun _ => ⟨fun _ _ => .done .ok, .panic⟩)
  have hden : denote x = denote ⟨d⟩ := hw _ _
  have hs : selfArgs E d = .ok x := hx
  unfold toAnsiString toHtmlString toPlainString toStylishString
  rw [hs]
  have hc : coreFormat x = coreFormat ⟨d⟩ := by
    unfold coreFormat
    rw [Write.writeFmt_accepting StyString.accepting, Write.writeFmt_accepting StyString.accepting, hden]
  refine ⟨?_, ?_, ?_, ?_⟩
  · show Except.ok (ansiFormat x) = _
    rw [ansiFormat_eq, ansiFormat_eq, hden]
  · show Except.ok (htmlFormat x) = _
    rw [htmlFormat_eq, htmlFormat_eq, hden]
  · show Except.ok (plainFormat x) = _
    rw [plainFormat_eq, plainFormat_eq, hden]
  · show Except.ok (coreFormat x) = _
    rw [hc]

example : toHtmlString asciiEnv sampleProg =
    .ok (.ok (str "a<span style=color:red;font-weight:bolder>b</span>c")) := by
  rw [(C44_to_string asciiEnv_lawful sampleProg).2.1]
  rfl

/-! ## C12 with `{:s}` -/

/-- C12: `format!("{:s}", s)` of an attributed string `s` made from any arguments is the same in all three
backends as formatting these arguments directly. -/
theorem C12_via_placeholder {E : Env} (hE : E.Lawful) (args : Arguments) (s : StyString)
    (h : coreFormat args = .ok s) :
    ∃ x, formatArgs E (str "{:s}") [.positional ⟨fun _ _ => .done .ok, Display.fmt s⟩] noScope = .ok x ∧
      ansiFormat x = ansiFormat args ∧ htmlFormat x = htmlFormat args ∧ plainFormat x = plainFormat args := by
  obtain ⟨x, hx, hw⟩ := formatArgs_self hE ⟨fun _ _ => .done .ok, Display.fmt s⟩ noScope
  obtain ⟨h1, h2, h3⟩ := C12_via_string args s h
  refine ⟨x, hx, ?_⟩
  have hden : denote x = denote ⟨Display.fmt s⟩ := hw _ _
  rw [← h1, ← h2, ← h3]
  simp only [ansiFormat_eq, htmlFormat_eq, plainFormat_eq, hden]
  exact ⟨trivial, trivial, trivial⟩

/-! ## C45 -/

/-- C45: all four backends agree on the text: the plain output, the ANSI output without escape sequences
(when the text contains no ESC), the HTML output read back, and the text of the attributed string. -/
theorem C45_backends_agree (args : Arguments) (p a h : Str) (s : StyString)
    (hp : plainFormat args = .ok p) (ha : ansiFormat args = .ok a) (hh : htmlFormat args = .ok h)
    (hs : coreFormat args = .ok s) :
    (ESC ∉ p → stripSgr a = p) ∧ (HtmlReader.read h).map text = some p ∧ s.string = p := by
  refine ⟨fun hesc => C18_strip_gives_plain args a p ha hp hesc, ?_, ?_⟩
  · rw [htmlFormat_eq] at hh
    rw [plainFormat_eq] at hp
    rcases hout : (denote args).2 with u | u | _ | _ <;> rw [hout] at hh hp <;>
      simp [formatOutcome] at hh hp
    rw [← hh, ← hp, read_htmlRender]
    rfl
  · unfold coreFormat at hs
    rw [Write.writeFmt_accepting StyString.accepting] at hs
    rw [plainFormat_eq] at hp
    rcases hout : (denote args).2 with u | u | _ | _ <;> rw [hout] at hs hp <;>
      simp [formatOutcome, expectState] at hs hp
    rw [← hs, ← hp]
    exact (C11_offsets (denote args).1).1

/-- All four succeed together (C43), so the hypotheses of C45 are met by every program that returns `Ok`. -/
example : ∃ p a h s, plainFormat ⟨sampleProg⟩ = .ok p ∧ ansiFormat ⟨sampleProg⟩ = .ok a ∧
    htmlFormat ⟨sampleProg⟩ = .ok h ∧ coreFormat ⟨sampleProg⟩ = .ok s ∧ ESC ∉ p :=
  ⟨_, _, _, _, rfl, rfl, rfl, rfl, by decide⟩

/-! ## C46 and C41 on the string backends -/

/-- C46 for the `format!` macros of the three string backends: the rendering of what the format string
says. -/
theorem C46_formats {E : Env} (hE : E.Lawful) (format : Str) (args : List (MacroArg ArgVal))
    (scope : Str → ArgVal) (x : Arguments) (h : formatArgs E format args scope = .ok x)
    (t : List PieceSyn) (ht : Reads E format t) (log : List Chunk)
    (hlog : treeOutput args scope .default [] t = (log, .ok ())) :
    plainFormat x = .ok (text (flatten log)) ∧
    (∃ out, htmlFormat x = .ok out ∧ HtmlReader.read out = some (flatten log)) ∧
    (∃ out, ansiFormat x = .ok out ∧ (ESC ∉ text (flatten log) → stripSgr out = text (flatten log))) ∧
    (∃ s, coreFormat x = .ok s ∧ ∃ log', writes (Display.fmt s) .default .default = (log', .ok ()) ∧
      flatten log' = flatten log) := by
  have hden : denote x = (log, .ok ()) := by
    rw [← hlog]
    exact (C46_end_to_end hE format args scope x h).2 t ht _ _
  have hp : plainFormat x = .ok (text (flatten log)) := by rw [plainFormat_eq, hden]; rfl
  have ha : ansiFormat x = .ok (ansiRender (flatten log)) := by rw [ansiFormat_eq, hden]; rfl
  refine ⟨hp, ?_, ?_, ?_⟩
  · exact ⟨htmlRender (flatten log), by rw [htmlFormat_eq, hden]; rfl, read_htmlRender _⟩
  · exact ⟨_, ha, fun hesc => C18_strip_gives_plain x _ _ ha hp hesc⟩
  · obtain ⟨segs, h1, h2, -⟩ := coreFormat_eq x
    rw [hden] at h1 h2
    refine ⟨_, h1, segs, StyString.display_ofSegs segs _ _, ?_⟩
    simpa using h2

/-- C41 on the string backends: a `format!` of the `writeln!` arguments is the rendering of the styled text
of `write!` with a newline in the default style at the end. -/
theorem C41_formats {E : Env} (hE : E.Lawful) (format : Str) (args : List (MacroArg ArgVal))
    (scope : Str → ArgVal) (x nl : Arguments) (h : formatArgs E format args scope = .ok x)
    (hnl : formatArgsNl E format args scope = .ok nl) (p : Str) (hp : plainFormat x = .ok p) :
    plainFormat nl = .ok (p ++ ['\n']) ∧
    ∃ b b' r, htmlFormat x = .ok b ∧ htmlFormat nl = .ok b' ∧ HtmlReader.read b = some r ∧
      HtmlReader.read b' = some (r ++ [('\n', Style.default)]) := by
  obtain ⟨h1, h2⟩ := C41_writeln hE format args scope x nl h hnl .default .default
  change (denote nl).2 = (denote x).2 at h1
  change flatten (denote nl).1 = flatten (denote x).1 ++ (if (denote x).2 = _ then _ else _) at h2
  rw [plainFormat_eq] at hp
  simp only [plainFormat_eq, htmlFormat_eq, h1, h2]
  rcases hout : (denote x).2 with u | u | _ | _ <;> rw [hout] at hp <;> simp [formatOutcome] at hp
  subst hp
  refine ⟨by simp [formatOutcome, text], _, _, _, rfl, rfl, read_htmlRender _, ?_⟩
  rw [read_htmlRender]
  simp

end Stylish.Props
