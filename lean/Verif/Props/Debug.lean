import Verif.Lemmas.DebugLayout
import Verif.Props.MacroArgs
/-
`{:?}` of a formatter: C79.
-/

namespace Stylish.Props

open DebugText Spec Spec.Syntax

/-- C79: the words of what `{:?}` and `{:#?}` show of a formatter are the names and values of the style and options in force,
each field's value after its name. -/
theorem C79_debug_words {W : Type} (alternate : Bool) (f : Formatter W) :
    Spec.Debug.wordsFrom [] (f.debugText alternate) = Spec.Debug.described f.style f.format :=
  words_text f alternate

/-- C79: what `{:?}` and `{:#?}` show of a formatter is exactly its style and its options: two formatters are shown the same
if and only if they have the same style and the same options, whatever writers they write to. -/
theorem C79_debug_shows {V W : Type} (alternate : Bool) (f : Formatter V) (g : Formatter W) :
    f.debugText alternate = g.debugText alternate ↔ f.style = g.style ∧ f.format = g.format := by
  constructor
  · intro h
    have h := congrArg (Spec.Debug.wordsFrom []) h
    rw [text_words, text_words] at h
    simp only [Formatter.debug, valWords, fieldWords] at h
    obtain ⟨hs, e⟩ := style_inj (List.cons.inj (List.cons.inj h).2).2
    obtain ⟨ha, -⟩ := args_inj (List.cons.inj e).2
    exact ⟨hs, ha⟩
  · rintro ⟨hs, ha⟩
    unfold Formatter.debugText Formatter.debug
    rw [hs, ha]

/-- C79: in `{:#?}` every field is on a line of its own; every line is indented by four spaces for every bracket open around it,
and all brackets are closed in the end; but for the spaces, the line breaks and the commas it is the text of `{:?}`. -/
theorem C79_debug_layout {W : Type} (f : Formatter W) :
    Spec.Debug.broken '\n' (f.debugText true) ∧ Spec.Debug.indented (f.debugText true) ∧
      Spec.Debug.bare (f.debugText true) = Spec.Debug.bare (f.debugText false) :=
  ⟨(broken_pretty f.debug (named_formatter f) '\n' (by decide)).1,
    run_pretty f.debug (named_formatter f) _ (.inr ⟨rfl, rfl⟩), bare_pretty f.debug⟩

/-- C79: in `{:?}` there is only one line. -/
theorem C79_debug_one_line {W : Type} (f : Formatter W) : '\n' ∉ f.debugText false :=
  plain_line f.debug (named_formatter f)

/-- A value whose `stylish::Display` is `write!(f, "{:?}", f)` (or `{:#?}`): it shows the formatter it is given. -/
def probe (alternate : Bool) (std : Format.FormatTrait → StdOpts → StdProg) : ArgVal :=
  ⟨std, .inspect fun style args => .writeStr ((Formatter.mk style args ()).debugText alternate) .done⟩

/-- C79 in a placeholder: an implementation of `stylish::Display` that writes its formatter with `{:?}` shows the
surrounding style restyled by the attributes, and the options as written. -/
theorem C79_in_placeholder {E : Env} (hE : E.Lawful) (format : Str) (args : List (MacroArg ArgVal))
    (scope : Str → ArgVal) (x : Arguments) (h : formatArgs E format args scope = .ok x) (ref : Option ArgRef)
    (s : SpecSyn) (ht : Reads E format [.arg ref (some s)]) (hs : s.ty = .stylish) (alternate : Bool)
    (std : Format.FormatTrait → StdOpts → StdProg) (hv : valueFor args scope [] ref = some (probe alternate std))
    (st : Style) (a : FormatterArgs) :
    writes (Display.fmt x) st a =
      ([((Formatter.mk (s.style st) s.options ()).debugText alternate, s.style st)], .ok ()) := by
  rw [(C46_end_to_end hE format args scope x h).2 _ ht st a]
  simp only [treeOutput, pieceOutput, hv, specOf, argOutput, Option.getD_some, hs]
  rfl

/-! ## Examples -/

/-- The hypotheses are met by `format_args!("{:5(fg=red)s}", probe)`. -/
example :
    let s : SpecSyn := { width := some (.lit ['5']), attrs := some ⟨[.fg .red], false⟩, ty := .stylish }
    let v := probe false fun _ _ => .done .ok
    Reads asciiEnv (str "{:5(fg=red)s}") [.arg none (some s)] ∧ s.ty = .stylish ∧
    valueFor [.positional v] noScope [] none = some v ∧
    (formatArgs asciiEnv (str "{:5(fg=red)s}") [.positional v] noScope).toOption.map plainFormat =
      some (.ok (str "Formatter { style: Style { foreground: Red, background: Default, intensity: Normal }, format: FormatterArgs { align: None, sign: None, alternate: false, zero: false, width: Some(5), precision: None, debug_hex: None } }")) := by
  refine ⟨⟨by decide +kernel, ?_, ?_⟩, rfl, rfl, by decide +kernel⟩
  · simp [Documented, PieceSyn.Documented, SpecSyn.Documented, CountSyn.Documented, PrecisionSyn.Documented,
      Numeral, Merged, AttrsSyn.Documented, ArgRef.Documented, Syntax.Ident]
    try decide +kernel
  · simp [Supported, PieceSyn.Supported, SpecSyn.Supported, CountSyn.Supported, ArgRef.Supported,
      NoFalseFill]
    try decide +kernel

/-- A formatter inside `{:>5(fg=red)}`. -/
def debugSample : Formatter Unit :=
  ⟨⟨.Red, .Default, .Normal⟩, { FormatterArgs.default with align := some .Right, width := some 5 }, ()⟩

example : debugSample.debugText false = str "Formatter { style: Style { foreground: Red, background: Default, intensity: Normal }, format: FormatterArgs { align: Some(Right), sign: None, alternate: false, zero: false, width: Some(5), precision: None, debug_hex: None } }" := by
  decide +kernel

example : debugSample.debugText true = str "Formatter {\n    style: Style {\n        foreground: Red,\n        background: Default,\n        intensity: Normal,\n    },\n    format: FormatterArgs {\n        align: Some(\n            Right,\n        ),\n        sign: None,\n        alternate: false,\n        zero: false,\n        width: Some(\n            5,\n        ),\n        precision: None,\n        debug_hex: None,\n    },\n}" := by
  decide +kernel

/-- Not every text is laid out like this. -/
example : ¬ Spec.Debug.broken '\n' (str "A {\n    b: Some(1),\n}") ∧ Spec.Debug.broken '\n' (str "A {\n    b: 1,\n}") ∧
    ¬ Spec.Debug.indented (str "A {\n  b: 1,\n}") ∧ ¬ Spec.Debug.indented (str "A {\nb: 1,\n}") ∧
    ¬ Spec.Debug.indented (str "A {") ∧ Spec.Debug.indented (str "A {\n    b: 1,\n}") := by
  decide +kernel

end Stylish.Props
