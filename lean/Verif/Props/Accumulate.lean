import Verif.Props.Inline
import Verif.Props.MacroStyle
/-
C67: the attributes of nested placeholders accumulate.
-/

namespace Stylish.Props

open Nom Format Spec Spec.Syntax

/-! ## C67 -/

/-- A placeholder with the attributes `A` put before its own ones. Text stays as it is. -/
def withAttrs (A : List Attr) : PieceSyn → PieceSyn
  | .arg ref spec => .arg ref (some { specOf spec with attrs := some ⟨A ++ (specOf spec).attrList, false⟩ })
  | p => p

/-- `{:(A)s}` -/
def styledSelf (A : List Attr) : PieceSyn := .arg none (some { attrs := some ⟨A, false⟩, ty := .stylish })

/-- The list `B` does not end its setting of an attribute with `default` or `normal` where `A` sets that
attribute. -/
def NoReset (A B : List Attr) : Prop :=
  ((B.filterMap Attr.fg?).getLast? = some .Default → A.filterMap Attr.fg? = []) ∧
  ((B.filterMap Attr.bg?).getLast? = some .Default → A.filterMap Attr.bg? = []) ∧
  ((B.filterMap Attr.intensity?).getLast? = some .Normal → A.filterMap Attr.intensity? = [])

theorem last_append {T : Type} [DecidableEq T] (as bs : List T) (d x : T) (h : bs.getLast? = some d → as = []) :
    (((as ++ bs).getLast?).filter (fun c => c ≠ d)).getD x =
      ((bs.getLast?).filter (fun c => c ≠ d)).getD (((as.getLast?).filter (fun c => c ≠ d)).getD x) := by
  rw [List.getLast?_append]
  cases hb : bs.getLast? with
  | none => simp
  | some b =>
    by_cases hd : b = d
    · subst hd
      rw [h hb]
      simp [Option.filter]
    · simp [Option.filter, hd]

theorem style_append (s s' s'' : SpecSyn) (h : NoReset s.attrList s'.attrList)
    (e : s''.attrList = s.attrList ++ s'.attrList) (st : Style) : s''.style st = s'.style (s.style st) := by
  obtain ⟨h1, h2, h3⟩ := h
  unfold SpecSyn.style
  rw [e, List.filterMap_append, List.filterMap_append, List.filterMap_append]
  rw [last_append _ _ _ _ h1, last_append _ _ _ _ h2, last_append _ _ _ _ h3]

theorem withAttrs_bare (A : List Attr) (t : List PieceSyn) : bareCount (t.map (withAttrs A)) = bareCount t := by
  unfold bareCount
  rw [List.countP_map]
  congr 1
  funext p
  cases p with
  | arg ref spec => cases ref <;> rfl
  | _ => rfl

theorem withAttrs_isText (A : List Attr) (p : PieceSyn) : (withAttrs A p).isText = p.isText := by
  cases p <;> rfl

theorem withAttrs_merged (A : List Attr) : ∀ t, Merged t → Merged (t.map (withAttrs A))
  | [], _ => trivial
  | [_], _ => trivial
  | p :: q :: rest, h => by
    refine ⟨?_, withAttrs_merged A (q :: rest) h.2⟩
    rw [withAttrs_isText, withAttrs_isText]
    exact h.1

theorem withAttrs_documented {E : Env} (A : List Attr) (t : List PieceSyn) (h : Documented E t) :
    Documented E (t.map (withAttrs A)) := by
  refine ⟨?_, withAttrs_merged A t h.2⟩
  intro p hp
  obtain ⟨q, hq, rfl⟩ := List.mem_map.1 hp
  have hd := h.1 q hq
  cases q with
  | arg ref spec =>
    refine ⟨hd.1, ?_⟩
    intro s hs
    obtain rfl := Option.some.inj hs
    cases spec with
    | none => exact ⟨by simp [specOf], by simp [specOf], by simp [specOf], fun a ha => by
        obtain rfl := Option.some.inj ha; intro h; cases h⟩
    | some s0 =>
      obtain ⟨h1, h2, h3, -⟩ := hd.2 s0 rfl
      exact ⟨h1, h2, h3, fun a ha => by obtain rfl := Option.some.inj ha; intro h; cases h⟩
  | _ => exact hd

theorem withAttrs_noFalseFill (A : List Attr) : ∀ t : List PieceSyn, NoFalseFill (t.map (withAttrs A))
  | [] => trivial
  | p :: rest => by
    refine ⟨fun h => ?_, withAttrs_noFalseFill A rest⟩
    cases p with
    | arg ref spec =>
      exfalso
      simp [withAttrs, PieceSyn.emptySpec, SpecSyn.print, AttrsSyn.print] at h
    | _ => cases h

theorem withAttrs_supported {E : Env} (A : List Attr) (hA : A ≠ []) (t : List PieceSyn) (h : Supported E t) :
    Supported E (t.map (withAttrs A)) := by
  refine ⟨?_, withAttrs_noFalseFill A t⟩
  intro p hp
  obtain ⟨q, hq, rfl⟩ := List.mem_map.1 hp
  have hd := h.1 q hq
  cases q with
  | arg ref spec =>
    refine ⟨hd.1, ?_⟩
    intro s hs
    obtain rfl := Option.some.inj hs
    cases spec with
    | none => exact ⟨by simp [specOf], by simp [specOf], by simp [specOf], by simp [specOf], fun a ha => by
        obtain rfl := Option.some.inj ha; exact ⟨by simp [hA], rfl⟩⟩
    | some s0 =>
      obtain ⟨h1, h2, h3, h4, -⟩ := hd.2 s0 rfl
      exact ⟨h1, h2, h3, h4, fun a ha => by obtain rfl := Option.some.inj ha; exact ⟨by simp [hA], rfl⟩⟩
  | _ => trivial

theorem withAttrs_split {A : List Attr} {t before after : List PieceSyn} {p : PieceSyn}
    (e : t.map (withAttrs A) = before ++ p :: after) :
    ∃ b q a, t = b ++ q :: a ∧ before = b.map (withAttrs A) ∧ p = withAttrs A q ∧ after = a.map (withAttrs A) := by
  obtain ⟨b, r, rfl, hb, hr⟩ := List.map_eq_append_iff.1 e
  obtain ⟨q, a, rfl, hq, ha⟩ := List.map_eq_cons_iff.1 hr
  exact ⟨b, q, a, rfl, hb.symm, hq.symm, ha.symm⟩

theorem withAttrs_refsOk (A : List Attr) (args : List (MacroArg ArgVal)) (t : List PieceSyn) (h : RefsOk args t) :
    RefsOk args (t.map (withAttrs A)) := by
  intro before ref spec after e
  obtain ⟨b, q, a, rfl, rfl, hq, rfl⟩ := withAttrs_split e
  cases q with
  | arg ref0 spec0 =>
    obtain ⟨rfl, rfl⟩ := PieceSyn.arg.inj hq
    obtain ⟨h1, h2⟩ := h b ref spec0 a rfl
    refine ⟨?_, h2⟩
    rw [refExists_target] at h1 ⊢
    rw [withAttrs_bare]
    exact h1
  | _ => cases hq

theorem withAttrs_allUsed (A : List Attr) (args : List (MacroArg ArgVal)) (t : List PieceSyn) (h : AllUsed args t) :
    AllUsed args (t.map (withAttrs A)) := by
  refine ⟨fun i hi => ?_, fun n hn => ?_⟩
  · obtain ⟨b, ref, spec, a, rfl, hr⟩ := h.1 i hi
    refine ⟨b.map (withAttrs A), ref, _, a.map (withAttrs A), by rw [List.map_append]; rfl, ?_⟩
    rw [withAttrs_bare]
    exact hr
  · obtain ⟨spec, hm⟩ := h.2 n hn
    exact ⟨_, List.mem_map.2 ⟨_, hm, rfl⟩⟩

/-- A call compiles exactly if it does with the attributes put before those of every placeholder. -/
theorem withAttrs_compiles {E : Env} (hE : E.Lawful) (A : List Attr) (hA : A ≠ []) (t : List PieceSyn)
    (hd : Documented E t) (hs : Supported E t) (args : List (MacroArg ArgVal)) (scope : Str → ArgVal) (x : Arguments)
    (h : formatArgs E (print t) args scope = .ok x) :
    ∃ z, formatArgs E (print (t.map (withAttrs A))) args scope = .ok z := by
  rcases formatArgs_tree hE args scope t hd hs with ⟨⟨h1, h2, h3⟩, -⟩ | ⟨-, e, he⟩
  · rcases formatArgs_tree hE args scope _ (withAttrs_documented A t hd) (withAttrs_supported A hA t hs) with
      ⟨-, e⟩ | ⟨hno, -⟩
    · exact ⟨_, e⟩
    · exact absurd ⟨h1, withAttrs_refsOk A args t h2, withAttrs_allUsed A args t h3⟩ hno
  · rw [he] at h; cases h

theorem treeRun_withAttrs {W : Type} [Write W] (A : List Attr) (s : SpecSyn) (hsA : s.attrList = A)
    (args : List (MacroArg ArgVal)) (scope : Str → ArgVal) (st : Style) (t : List PieceSyn)
    (hargs : ∀ p ∈ t, ∃ ref spec, p = .arg ref spec)
    (hres : ∀ ref spec, PieceSyn.arg ref spec ∈ t → NoReset A (specOf spec).attrList) :
    ∀ before (w : W), treeRun args scope (s.style st) before t w =
      treeRun args scope st (before.map (withAttrs A)) (t.map (withAttrs A)) w := by
  induction t with
  | nil => intros; rfl
  | cons p rest ih =>
    intro before w
    obtain ⟨ref, spec, rfl⟩ := hargs p (List.mem_cons_self ..)
    have hp : pieceRun args scope before (s.style st) (.arg ref spec) w =
        pieceRun args scope (before.map (withAttrs A)) st (withAttrs A (.arg ref spec)) w := by
      have hv : valueFor args scope (before.map (withAttrs A)) ref = valueFor args scope before ref := by
        rw [valueFor_target, valueFor_target, withAttrs_bare]
      simp only [withAttrs, pieceRun, hv]
      cases valueFor args scope before ref with
      | none => rfl
      | some v =>
        have e1 := style_append s (specOf spec) { specOf spec with attrs := some ⟨A ++ (specOf spec).attrList, false⟩ }
          (by rw [hsA]; exact hres ref spec (List.mem_cons_self ..)) (by rw [hsA]; rfl) st
        show argRun v (specOf spec) (s.style st) w =
          argRun v { specOf spec with attrs := some ⟨A ++ (specOf spec).attrList, false⟩ } st w
        unfold argRun
        rw [e1]
        rfl
    simp only [List.map_cons, treeRun, hp]
    rcases pieceRun args scope (before.map (withAttrs A)) st (withAttrs A (.arg ref spec)) w with ⟨_ | _ | _ | _, w'⟩ <;>
      try rfl
    have := ih (fun p hp => hargs p (List.mem_cons_of_mem _ hp)) (fun r s hm => hres r s (List.mem_cons_of_mem _ hm))
      (before ++ [.arg ref spec]) w'
    rw [List.map_append] at this
    exact this

theorem styledSelf_reads (E : Env) (A : List Attr) (hA : A ≠ []) :
    Documented E [styledSelf A] ∧ Supported E [styledSelf A] := by
  refine ⟨⟨?_, trivial⟩, ⟨?_, ?_, trivial⟩⟩
  · simp [styledSelf, PieceSyn.Documented, SpecSyn.Documented, AttrsSyn.Documented]
  · simp [styledSelf, PieceSyn.Supported, SpecSyn.Supported, hA]
  · simp [styledSelf, PieceSyn.emptySpec, SpecSyn.print, Ty.print]

theorem styledSelf_accepted (A : List Attr) (v : ArgVal) : PositionalFirst [MacroArg.positional v] ∧
    RefsOk [MacroArg.positional v] [styledSelf A] ∧ AllUsed [MacroArg.positional v] [styledSelf A] := by
  refine ⟨⟨[v], [], rfl⟩, ?_, fun i hi => ?_, by simp [nameds]⟩
  · intro before ref spec after e
    have hb : before = [] ∧ PieceSyn.arg ref spec = styledSelf A ∧ after = [] := by
      cases before with
      | nil => obtain ⟨h1, h2⟩ := List.cons.inj e; exact ⟨rfl, h1.symm, h2.symm⟩
      | cons q r => simp at e
    obtain ⟨rfl, e2, rfl⟩ := hb
    obtain ⟨rfl, rfl⟩ := PieceSyn.arg.inj e2
    exact ⟨by simp [RefExists, bareCount, positionals], ⟨by simp [specOf], by simp [specOf]⟩⟩
  · have : i = 0 := by simp [positionals] at hi; exact hi
    subst this
    exact ⟨[], none, _, [], rfl, Or.inl ⟨rfl, rfl⟩⟩

/-- C67: the attributes of a `{:(A)s}` placeholder whose argument is a `format_args!` without literal text act like
attributes written at the front of the list of every placeholder of that `format_args!`: on every writer, failing
or not, both do the same. This needs that no nested placeholder resets, with `fg=default`, `bg=default` or
`normal`, an attribute set by `A`: such a reset has no effect when nested, but has in one list
(`C67_counterexample`). -/
theorem C67_accumulate {E : Env} (hE : E.Lawful) (A : List Attr) (hA : A ≠ []) (g : Str) (t : List PieceSyn)
    (ht : Reads E g t) (hargs : ∀ p ∈ t, ∃ ref spec, p = .arg ref spec)
    (hres : ∀ ref spec, PieceSyn.arg ref spec ∈ t → NoReset A (specOf spec).attrList)
    (args : List (MacroArg ArgVal)) (scope : Str → ArgVal) (xg : Arguments)
    (hxg : formatArgs E g args scope = .ok xg) (nested : ArgVal) (hnested : nested.stylish = Display.fmt xg) :
    ∃ y z, formatArgs E (print [styledSelf A]) [.positional nested] scope = .ok y ∧
      formatArgs E (print (t.map (withAttrs A))) args scope = .ok z ∧
      ∀ (W : Type) [Write W] (f : Formatter W), Formatter.writeFmt y f = Formatter.writeFmt z f := by
  obtain ⟨rfl, hd, hs⟩ := ht
  obtain ⟨z, hz⟩ := withAttrs_compiles hE A hA t hd hs args scope xg hxg
  obtain ⟨hd1, hs1⟩ := styledSelf_reads E A hA
  rcases formatArgs_tree hE [.positional nested] scope _ hd1 hs1 with ⟨-, e⟩ | ⟨hno, -⟩
  · refine ⟨_, z, e, hz, fun W _ f => ?_⟩
    rw [C46_any_writer hE _ _ scope _ e _ ⟨rfl, hd1, hs1⟩ W f,
      C46_any_writer hE _ _ scope _ hz _ ⟨rfl, withAttrs_documented A t hd, withAttrs_supported A hA t hs⟩ W f,
      treeRun_single]
    have hrun := treeRun_withAttrs A { attrs := some ⟨A, false⟩, ty := .stylish } rfl args scope f.style t hargs hres
      [] f.write
    have hw := C46_any_writer hE _ args scope xg hxg t ⟨rfl, hd, hs⟩ W
      ⟨SpecSyn.style { attrs := some ⟨A, false⟩, ty := .stylish } f.style,
        SpecSyn.options { attrs := some ⟨A, false⟩, ty := .stylish }, f.write⟩
    have hp : pieceRun [.positional nested] scope [] f.style (styledSelf A) f.write =
        treeRun args scope f.style [] (t.map (withAttrs A)) f.write := by
      show argRun nested { attrs := some ⟨A, false⟩, ty := .stylish } f.style f.write = _
      rw [argRun]
      dsimp only
      rw [hnested]
      rw [List.map_nil] at hrun
      rw [← hrun]
      have hw' : ∀ f : Formatter W, Formatter.writeFmt xg f = (Display.fmt xg).run f := by
        intro f
        show (do (Display.fmt xg).run; return () : Act (Formatter W) FmtError Unit) f = _
        simp only [bind, Act.bind]
        rcases (Display.fmt xg).run f with ⟨_ | _ | _ | _, w⟩ <;> rfl
      rw [hw'] at hw
      rw [hw]
    rw [hp]
  · exact absurd (styledSelf_accepted A nested) hno

/-- C67 on an example: `{:(fg=red,bold)s}` of `{}{n:(bg=blue,faint)}`. -/
example :
    print [styledSelf [.fg .red, .bold]] = str "{:(fg=red,bold)s}" ∧
    print ([PieceSyn.arg none none, .arg (some (.name ['n'])) (some { attrs := some ⟨[.bg .blue, .faint], false⟩ })].map
      (withAttrs [.fg .red, .bold])) = str "{:(fg=red,bold)}{n:(fg=red,bold,bg=blue,faint)}" ∧
    (formatArgs asciiEnv (str "{:(fg=red,bold)}{n:(fg=red,bold,bg=blue,faint)}")
      [.positional (textArg ['x']), .named ['n'] (textArg ['y'])] noScope).toOption.map
        (fun z => writes (Display.fmt z) .default .default) =
      some ([(['x'], ⟨.Red, .Default, .Bold⟩), (['y'], ⟨.Red, .Blue, .Faint⟩)], .ok ()) ∧
    ((formatArgs asciiEnv (str "{}{n:(bg=blue,faint)}")
      [.positional (textArg ['x']), .named ['n'] (textArg ['y'])] noScope).toOption.bind fun xg =>
        (formatArgs asciiEnv (str "{:(fg=red,bold)s}") [.positional ⟨fun _ _ => .done .ok, Display.fmt xg⟩] noScope).toOption.map
        (fun y => writes (Display.fmt y) .default .default)) =
      some ([(['x'], ⟨.Red, .Default, .Bold⟩), (['y'], ⟨.Red, .Blue, .Faint⟩)], .ok ()) := by
  decide +kernel

/-- The condition on resets is needed: `{:(fg=red)s}` of `{:(fg=default)}` is red, but `{:(fg=red,fg=default)}` is
not. -/
theorem C67_counterexample :
    ((formatArgs asciiEnv (str "{:(fg=default)}") [.positional (textArg ['x'])] noScope).toOption.bind fun xg =>
        (formatArgs asciiEnv (str "{:(fg=red)s}") [.positional ⟨fun _ _ => .done .ok, Display.fmt xg⟩] noScope).toOption.map
        (fun y => writes (Display.fmt y) .default .default)) =
      some ([(['x'], ⟨.Red, .Default, .Normal⟩)], .ok ()) ∧
    (formatArgs asciiEnv (str "{:(fg=red,fg=default)}") [.positional (textArg ['x'])] noScope).toOption.map
        (fun y => writes (Display.fmt y) .default .default) =
      some ([(['x'], ⟨.Default, .Default, .Normal⟩)], .ok ()) := by
  decide +kernel

end Stylish.Props
