import Verif.Props.MacroArgs
import Verif.Props.Formatter
/-
Property C37: attributes in a placeholder restyle it.

The specification is `restyle`: apply the attributes from left to right to the surrounding style. The code
agrees except that a last setting of `fg=default`, `bg=default` or `normal` does nothing, so it fails to
reset an inherited attribute (`C37_counterexample`); `C37_exactly_when` says exactly when the code is right.
-/

namespace Stylish.Props

open Nom Format Spec Spec.Syntax

/-- Apply one attribute. -/
def Attr.apply (st : Style) : Attr → Style
  | .fg c => { st with foreground := c.color }
  | .bg c => { st with background := c.color }
  | .normal => { st with intensity := .Normal }
  | .bold => { st with intensity := .Bold }
  | .faint => { st with intensity := .Faint }

/-- Apply the attributes from left to right. -/
def restyle (st : Style) (as : List Attr) : Style := as.foldl Attr.apply st

theorem restyle_fields (as : List Attr) (st : Style) :
    restyle st as =
      { foreground := ((as.filterMap Attr.fg?).getLast?).getD st.foreground
        background := ((as.filterMap Attr.bg?).getLast?).getD st.background
        intensity := ((as.filterMap Attr.intensity?).getLast?).getD st.intensity } := by
  induction as generalizing st with
  | nil => rfl
  | cons a as ih =>
    have hcons : ∀ {T : Type} (x : T) (l : List T) (d : T), ((x :: l).getLast?).getD d = (l.getLast?).getD x := by
      intro T x l d
      cases l with
      | nil => rfl
      | cons y l => rw [List.getLast?_cons_cons]; cases h : (y :: l).getLast? with
        | none => simp at h
        | some z => rfl
    rw [restyle, List.foldl_cons, ← restyle, ih]
    cases a <;> simp only [Attr.apply, List.filterMap_cons, Attr.fg?, Attr.bg?, Attr.intensity?, hcons]

/-- No attribute whose last setting in the list is `default`/`normal` has another value in the surrounding
style: the list does not have to reset anything. -/
def NothingToReset (as : List Attr) (st : Style) : Prop :=
  ((as.filterMap Attr.fg?).getLast? = some .Default → st.foreground = .Default) ∧
  ((as.filterMap Attr.bg?).getLast? = some .Default → st.background = .Default) ∧
  ((as.filterMap Attr.intensity?).getLast? = some .Normal → st.intensity = .Normal)

/-- On the formatter `f`, `x` does what `y` does on the same formatter with its style restyled by the
attributes; afterwards the formatter is as it was. -/
def SameRestyled {W : Type} [Write W] (x y : Arguments) (as : List Attr) (f : Formatter W) : Prop :=
  Formatter.writeFmt x f =
    ((Formatter.writeFmt y { f with style := restyle f.style as }).1,
      { f with write := (Formatter.writeFmt y { f with style := restyle f.style as }).2.write })

/-- The full claim C37: formatting a placeholder with attributes is formatting the same placeholder without
them in the surrounding style restyled by the attributes from left to right. -/
def C37_claim : Prop :=
  ∀ (E : Env) (_ : E.Lawful) (args : List (MacroArg ArgVal)) (scope : Str → ArgVal) (ref : Option ArgRef)
    (s : SpecSyn) (x : Arguments) (_ : Documented E [.arg ref (some s)]) (_ : Supported E [.arg ref (some s)])
    (_ : formatArgs E (print [.arg ref (some s)]) args scope = .ok x),
    ∃ y, formatArgs E (print [.arg ref (some { s with attrs := none })]) args scope = .ok y ∧
      ∀ (W : Type) [Write W] (f : Formatter W), SameRestyled x y s.attrList f

theorem filter_getD {T : Type} [DecidableEq T] (o : Option T) (d x : T) :
    ((o.filter (fun c => c ≠ d)).getD x = o.getD x) ↔ (o = some d → x = d) := by
  cases o with
  | none => simp
  | some c =>
    by_cases h : c = d
    · simp [h, Option.filter]
    · simp [h, Option.filter]

theorem style_eq_restyle (s : SpecSyn) (st : Style) :
    s.style st = restyle st s.attrList ↔ NothingToReset s.attrList st := by
  rw [SpecSyn.style, restyle_fields, Style.mk.injEq]
  unfold NothingToReset
  rw [filter_getD, filter_getD, filter_getD]

/-- A specification without its attributes. -/
theorem plain_documented {E : Env} {ref : Option ArgRef} {s : SpecSyn}
    (hd : Documented E [.arg ref (some s)]) : Documented E [.arg ref (some { s with attrs := none })] := by
  refine ⟨?_, trivial⟩
  intro p hp
  obtain rfl := List.mem_singleton.1 hp
  have := hd.1 _ (List.mem_singleton.2 rfl)
  refine ⟨this.1, ?_⟩
  rintro s' hs'
  obtain rfl := Option.some.inj hs'
  obtain ⟨h1, h2, h3, -⟩ := this.2 s rfl
  exact ⟨h1, h2, h3, fun a ha => by cases ha⟩

theorem plain_supported {E : Env} {ref : Option ArgRef} {s : SpecSyn}
    (hs : Supported E [.arg ref (some s)]) : Supported E [.arg ref (some { s with attrs := none })] := by
  refine ⟨?_, fun _ => rfl, trivial⟩
  intro p hp
  obtain rfl := List.mem_singleton.1 hp
  have := hs.1 _ (List.mem_singleton.2 rfl)
  refine ⟨this.1, ?_⟩
  rintro s' hs'
  obtain rfl := Option.some.inj hs'
  obtain ⟨h1, h2, h3, h4, -⟩ := this.2 s rfl
  exact ⟨h1, h2, h3, h4, fun a ha => by cases ha⟩

/-- Whether a call with a single placeholder is accepted depends only on the reference and the counts. -/
theorem single_congr {args : List (MacroArg ArgVal)} {ref : Option ArgRef} {s s' : SpecSyn}
    (hw : s'.width = s.width) (hp : s'.precision = s.precision)
    (h : PositionalFirst args ∧ RefsOk args [.arg ref (some s)] ∧ AllUsed args [.arg ref (some s)]) :
    PositionalFirst args ∧ RefsOk args [.arg ref (some s')] ∧ AllUsed args [.arg ref (some s')] := by
  have key : ∀ {before ref' spec after}, ([.arg ref (some s')] : List PieceSyn) = before ++ .arg ref' spec :: after →
      before = [] ∧ ref' = ref ∧ spec = some s' ∧ after = [] := by
    intro before ref' spec after e
    cases before with
    | nil => simp at e; exact ⟨rfl, e.1.1.symm, e.1.2.symm, e.2⟩
    | cons b bs => simp at e
  obtain ⟨h1, h2, h3, h4⟩ := h
  refine ⟨h1, ?_, ?_, ?_⟩
  · intro before ref' spec after e
    obtain ⟨rfl, rfl, rfl, rfl⟩ := key e
    have := h2 [] ref' (some s) [] rfl
    refine ⟨this.1, ?_⟩
    have hn := this.2
    unfold SpecSyn.NoParams specOf at hn ⊢
    simp only [Option.getD_some] at hn ⊢
    rw [hw, hp]
    exact hn
  · intro i hi
    obtain ⟨before, ref', spec, after, e, hr⟩ := h3 i hi
    refine ⟨before, ref', some s', after, ?_, hr⟩
    cases before with
    | nil => simp at e; simp [e]
    | cons b bs => simp at e
  · intro n hn
    obtain ⟨spec, hm⟩ := h4 n hn
    simp at hm
    exact ⟨some s', by simp [hm.1]⟩

theorem treeRun_single {W : Type} [Write W] (args : List (MacroArg ArgVal)) (scope : Str → ArgVal) (st : Style)
    (p : PieceSyn) (w : W) : treeRun args scope st [] [p] w = pieceRun args scope [] st p w := by
  rw [treeRun]
  dsimp only
  generalize pieceRun args scope [] st p w = r
  rcases r with ⟨_ | _ | _ | _, w'⟩ <;> rfl

theorem treeOutput_single (args : List (MacroArg ArgVal)) (scope : Str → ArgVal) (st : Style)
    (p : PieceSyn) : treeOutput args scope st [] [p] = pieceOutput args scope [] st p := by
  rw [treeOutput]
  generalize pieceOutput args scope [] st p = r
  rcases r with ⟨out, _ | _ | _ | _⟩ <;> simp [treeOutput]

/-- C37, the part that holds: in every surrounding style in which the attribute list does not have to reset
anything to the default (see `C37_exactly_when`), a placeholder with attributes does exactly what the same
placeholder without them does in the restyled style, on any writer, also one that fails. -/
theorem C37_restyle_partial {E : Env} (hE : E.Lawful) (args : List (MacroArg ArgVal)) (scope : Str → ArgVal)
    (ref : Option ArgRef) (s : SpecSyn) (x : Arguments) (hd : Documented E [.arg ref (some s)])
    (hs : Supported E [.arg ref (some s)])
    (h : formatArgs E (print [.arg ref (some s)]) args scope = .ok x) :
    ∃ y, formatArgs E (print [.arg ref (some { s with attrs := none })]) args scope = .ok y ∧
      ∀ (W : Type) [Write W] (f : Formatter W), NothingToReset s.attrList f.style →
        SameRestyled x y s.attrList f := by
  have hd' := plain_documented hd
  have hs' := plain_supported hs
  rcases formatArgs_tree hE args scope _ hd hs with ⟨hok, e⟩ | ⟨-, e, he⟩
  · rcases formatArgs_tree hE args scope _ hd' hs' with ⟨-, e'⟩ | ⟨hno, -⟩
    · refine ⟨_, e', ?_⟩
      intro W _ f hn
      unfold SameRestyled
      rw [C46_any_writer hE _ args scope x h _ ⟨rfl, hd, hs⟩ W f,
        C46_any_writer hE _ args scope _ e' _ ⟨rfl, hd', hs'⟩ W _, treeRun_single, treeRun_single]
      have : pieceRun args scope [] f.style (.arg ref (some s)) f.write =
          pieceRun args scope [] (restyle f.style s.attrList) (.arg ref (some { s with attrs := none })) f.write := by
        simp only [pieceRun]
        cases valueFor args scope [] ref with
        | none => rfl
        | some v =>
          show argRun v s f.style f.write =
            argRun v { s with attrs := none } (restyle f.style s.attrList) f.write
          have e1 : SpecSyn.style { s with attrs := none } (restyle f.style s.attrList) = s.style f.style := by
            rw [(style_eq_restyle s f.style).2 hn]; rfl
          have e2 : SpecSyn.options { s with attrs := none } = s.options := rfl
          unfold argRun
          rw [e1, e2]
      rw [this]
    · exact absurd (single_congr (s := s) (s' := { s with attrs := none }) rfl rfl hok) hno
  · rw [he] at h; cases h

/-- C37 for attribute lists without `fg=default`, `bg=default` and `normal`: they work in every style. -/
theorem C37_no_reset_partial {E : Env} (hE : E.Lawful) (args : List (MacroArg ArgVal)) (scope : Str → ArgVal)
    (ref : Option ArgRef) (s : SpecSyn) (x : Arguments) (hd : Documented E [.arg ref (some s)])
    (hs : Supported E [.arg ref (some s)])
    (hn : ∀ a ∈ s.attrList, a ≠ .fg .default ∧ a ≠ .bg .default ∧ a ≠ .normal)
    (h : formatArgs E (print [.arg ref (some s)]) args scope = .ok x) :
    ∃ y, formatArgs E (print [.arg ref (some { s with attrs := none })]) args scope = .ok y ∧
      ∀ (W : Type) [Write W] (f : Formatter W), SameRestyled x y s.attrList f := by
  obtain ⟨y, hy, H⟩ := C37_restyle_partial hE args scope ref s x hd hs h
  refine ⟨y, hy, fun W _ f => H W f ⟨fun hl => ?_, fun hl => ?_, fun hl => ?_⟩⟩
  · obtain ⟨a, ha, hc⟩ := List.mem_filterMap.1 (List.mem_of_getLast? hl)
    obtain ⟨h1, h2, -⟩ := hn a ha
    cases a <;> simp only [Attr.fg?, Option.some.injEq, reduceCtorEq] at hc
    rename_i c; cases c <;> first | exact absurd rfl h1 | exact absurd rfl h2 | cases hc
  · obtain ⟨a, ha, hc⟩ := List.mem_filterMap.1 (List.mem_of_getLast? hl)
    obtain ⟨h1, h2, -⟩ := hn a ha
    cases a <;> simp only [Attr.bg?, Option.some.injEq, reduceCtorEq] at hc
    rename_i c; cases c <;> first | exact absurd rfl h1 | exact absurd rfl h2 | cases hc
  · obtain ⟨a, ha, hc⟩ := List.mem_filterMap.1 (List.mem_of_getLast? hl)
    have := hn a ha
    cases a <;> simp_all [Attr.intensity?]

/-- C37 at the outermost level, where the surrounding style is the default one: any attribute list works. -/
theorem C37_from_default {E : Env} (hE : E.Lawful) (args : List (MacroArg ArgVal)) (scope : Str → ArgVal)
    (ref : Option ArgRef) (s : SpecSyn) (x : Arguments) (hd : Documented E [.arg ref (some s)])
    (hs : Supported E [.arg ref (some s)])
    (h : formatArgs E (print [.arg ref (some s)]) args scope = .ok x) :
    ∃ y, formatArgs E (print [.arg ref (some { s with attrs := none })]) args scope = .ok y ∧
      ∀ (W : Type) [Write W] (a : FormatterArgs) (w : W),
        SameRestyled x y s.attrList ⟨⟨.Default, .Default, .Normal⟩, a, w⟩ := by
  obtain ⟨y, hy, H⟩ := C37_restyle_partial hE args scope ref s x hd hs h
  exact ⟨y, hy, fun W _ a w => H W _ ⟨fun _ => rfl, fun _ => rfl, fun _ => rfl⟩⟩

/-- C37, exactly when it holds: a text shown by a placeholder has the surrounding style restyled by the
attributes if and only if the list does not have to reset anything. -/
theorem C37_exactly_when {E : Env} (hE : E.Lawful) (scope : Str → ArgVal) (s : SpecSyn) (txt : Str)
    (hd : Documented E [.arg none (some s)]) (hs : Supported E [.arg none (some s)]) (hp : s.NoParams) :
    ∃ x, formatArgs E (print [.arg none (some s)]) [.positional (textArg txt)] scope = .ok x ∧
      ∀ st a, writes (Display.fmt x) st a = ([(txt, restyle st s.attrList)], .ok ()) ↔
        NothingToReset s.attrList st := by
  rcases formatArgs_tree hE [.positional (textArg txt)] scope _ hd hs with ⟨hok, e⟩ | ⟨hno, -⟩
  · refine ⟨_, e, fun st a => ?_⟩
    rw [(C46_end_to_end hE _ _ scope _ e).2 _ ⟨rfl, hd, hs⟩, treeOutput_single, ← style_eq_restyle]
    have : pieceOutput [.positional (textArg txt)] scope [] st (.arg none (some s)) =
        ([(txt, s.style st)], .ok ()) := by
      show argOutput (textArg txt) s st = _
      unfold argOutput
      cases s.ty <;> rfl
    rw [this]
    simp
  · refine absurd ⟨⟨[textArg txt], [], rfl⟩, ?_, ?_, ?_⟩ hno
    · intro before ref' spec after e
      cases before with
      | nil =>
        simp at e
        obtain ⟨⟨rfl, rfl⟩, rfl⟩ := e
        exact ⟨Nat.zero_lt_one, hp⟩
      | cons b bs => simp at e
    · intro i hi
      have : i = 0 := by simpa [positionals] using hi
      subst this
      exact ⟨[], none, some s, [], rfl, Or.inl ⟨rfl, rfl⟩⟩
    · intro n hn
      simp [nameds] at hn

/-- C37: the order of settings of different attributes is irrelevant, and of several settings of the same
attribute only the last counts: placeholders that differ only in their attribute lists, with the same last
setting of each of the three attributes, do the same, on any writer. -/
theorem C37_order {E : Env} (hE : E.Lawful) (args : List (MacroArg ArgVal)) (scope : Str → ArgVal)
    (ref : Option ArgRef) (s : SpecSyn) (as : Option AttrsSyn) (x x' : Arguments)
    (hd : Documented E [.arg ref (some s)]) (hs : Supported E [.arg ref (some s)])
    (hd' : Documented E [.arg ref (some { s with attrs := as })])
    (hs' : Supported E [.arg ref (some { s with attrs := as })])
    (h : formatArgs E (print [.arg ref (some s)]) args scope = .ok x)
    (h' : formatArgs E (print [.arg ref (some { s with attrs := as })]) args scope = .ok x')
    (hf : (s.attrList.filterMap Attr.fg?).getLast? =
      ((SpecSyn.attrList { s with attrs := as }).filterMap Attr.fg?).getLast?)
    (hb : (s.attrList.filterMap Attr.bg?).getLast? =
      ((SpecSyn.attrList { s with attrs := as }).filterMap Attr.bg?).getLast?)
    (hi : (s.attrList.filterMap Attr.intensity?).getLast? =
      ((SpecSyn.attrList { s with attrs := as }).filterMap Attr.intensity?).getLast?)
    (W : Type) [Write W] (f : Formatter W) : Formatter.writeFmt x f = Formatter.writeFmt x' f := by
  rw [C46_any_writer hE _ args scope x h _ ⟨rfl, hd, hs⟩ W f,
    C46_any_writer hE _ args scope x' h' _ ⟨rfl, hd', hs'⟩ W f, treeRun_single, treeRun_single]
  have : pieceRun args scope [] f.style (.arg ref (some s)) f.write =
      pieceRun args scope [] f.style (.arg ref (some { s with attrs := as })) f.write := by
    simp only [pieceRun]
    cases valueFor args scope [] ref with
    | none => rfl
    | some v =>
      show argRun v s f.style f.write = argRun v { s with attrs := as } f.style f.write
      have e1 : SpecSyn.style { s with attrs := as } f.style = s.style f.style := by
        unfold SpecSyn.style
        rw [hf, hb, hi]
      have e2 : SpecSyn.options { s with attrs := as } = s.options := rfl
      unfold argRun
      rw [e1, e2]
  rw [this]

/-- C37 is false in general: `{:(fg=default)}` inside red text stays red. -/
theorem C37_counterexample : ¬ C37_claim ∧
    (formatArgs asciiEnv (str "{:(fg=default)}") [.positional (textArg (str "x"))] noScope).toOption.map
      (fun x => (writes (Display.fmt x) ⟨.Red, .Default, .Normal⟩ .default).1) =
      some [(['x'], ⟨.Red, .Default, .Normal⟩)] := by
  constructor
  · intro h
    have hd : Documented asciiEnv [.arg none (some { attrs := some ⟨[.fg .default], false⟩ })] := by
      refine ⟨?_, trivial⟩
      intro p hp
      obtain rfl := List.mem_singleton.1 hp
      refine ⟨nofun, ?_⟩
      rintro s ⟨⟩
      exact ⟨nofun, nofun, nofun, by rintro a ⟨⟩; nofun⟩
    have hs : Supported asciiEnv [.arg none (some { attrs := some ⟨[.fg .default], false⟩ })] := by
      refine ⟨?_, fun _ => rfl, trivial⟩
      intro p hp
      obtain rfl := List.mem_singleton.1 hp
      refine ⟨nofun, ?_⟩
      rintro s ⟨⟩
      exact ⟨nofun, nofun, nofun, nofun, by rintro a ⟨⟩; exact ⟨by simp, rfl⟩⟩
    obtain ⟨x, hx, H⟩ := C37_exactly_when asciiEnv_lawful noScope _ ['x'] hd hs ⟨nofun, nofun⟩
    obtain ⟨y, hy, hsame⟩ := h asciiEnv asciiEnv_lawful _ _ _ _ x hd hs hx
    have hred := hsame LogWriter ⟨⟨.Red, .Default, .Normal⟩, .default, ⟨[]⟩⟩
    have hxw := C46_any_writer asciiEnv_lawful _ _ _ x hx _ ⟨rfl, hd, hs⟩ LogWriter
      ⟨⟨.Red, .Default, .Normal⟩, .default, ⟨[]⟩⟩
    have hyw := C46_any_writer asciiEnv_lawful _ _ _ y hy _ ⟨rfl, plain_documented hd, plain_supported hs⟩ LogWriter
      ⟨⟨.Default, .Default, .Normal⟩, .default, ⟨[]⟩⟩
    unfold SameRestyled at hred
    rw [hxw] at hred
    have e : restyle ⟨.Red, .Default, .Normal⟩
        (SpecSyn.attrList { attrs := some ⟨[.fg .default], false⟩ }) = ⟨.Default, .Default, .Normal⟩ := rfl
    rw [e, hyw] at hred
    have hlog := congrArg (fun r => r.2.write.log) hred
    revert hlog
    decide
  · decide +kernel

example : ({ attrs := some ⟨[.fg .red, .bold, .fg .blue], false⟩ } : SpecSyn).style ⟨.Red, .Green, .Faint⟩ =
    ⟨.Blue, .Green, .Bold⟩ ∧ restyle ⟨.Red, .Green, .Faint⟩ [.fg .red, .bold, .fg .blue] = ⟨.Blue, .Green, .Bold⟩ := by
  decide

/-- The hypotheses of C37 are met: `{:(fg=red,bold,fg=blue)}` and `{:}`. -/
example : print [.arg none (some { attrs := some ⟨[.fg .red, .bold, .fg .blue], false⟩ })] =
      str "{:(fg=red,bold,fg=blue)}" ∧
    (formatArgs asciiEnv (str "{:(fg=red,bold,fg=blue)}") [.positional (textArg (str "x"))] noScope).toOption.map
      (fun x => (writes (Display.fmt x) ⟨.Red, .Green, .Faint⟩ .default).1) =
      some [(['x'], ⟨.Blue, .Green, .Bold⟩)] ∧
    NothingToReset [.fg .red, .bold, .fg .blue] ⟨.Red, .Green, .Faint⟩ ∧
    ¬ NothingToReset [.fg .red, .normal] ⟨.Red, .Green, .Faint⟩ := by
  refine ⟨by decide +kernel, by decide +kernel, ?_, ?_⟩
  · unfold NothingToReset; decide
  · unfold NothingToReset; decide

end Stylish.Props
