import Verif.Lemmas.Macro
import Verif.Lemmas.StdProxy
/-
Running the generated code.
-/

namespace Stylish

open Nom Format Spec Spec.Syntax

/-- The tuples the generated closure captures. -/
def capturedOf (args : List (MacroArg ArgVal)) (scope : Str → ArgVal) (t : List PieceSyn) : Captured :=
  ⟨positionals args, (nameds args).map Prod.snd,
    (t.flatMap (captureOf ((nameds args).map Prod.fst))).map scope⟩

/-- The program generated for a tree. -/
def treeProg (args : List (MacroArg ArgVal)) (scope : Str → ArgVal) (t : List PieceSyn) : Disp :=
  runStmts (capturedOf args scope t) (stmtsFor ((nameds args).map Prod.fst) 0 0 t)

theorem Ty.wrap_std (ty : Ty) (v : ArgVal) (h : ty ≠ .stylish) :
    wrapArg ty.trait v = stdWrite ty.stdKind ⟨v.std ty.trait⟩ := by
  cases ty <;> first | rfl | exact absurd rfl h

theorem writes_wrapArg (v : ArgVal) (s : SpecSyn) (st : Style) :
    writes (wrapArg s.ty.trait v) (s.style st) s.options = argOutput v s st := by
  by_cases h : s.ty = .stylish
  · simp only [argOutput, h]
    rfl
  · rw [Ty.wrap_std _ _ h, writes_stdWrite]
    unfold argOutput
    generalize s.ty = ty at h ⊢
    cases ty <;> first | rfl | exact absurd rfl h

theorem run_wrapArg {W : Type} [Write W] (v : ArgVal) (s : SpecSyn) (st : Style) (w : W) :
    (wrapArg s.ty.trait v).run ⟨s.style st, s.options, w⟩ =
      ((argRun v s st w).1, ⟨s.style st, s.options, (argRun v s st w).2⟩) := by
  by_cases h : s.ty = .stylish
  · simp only [argRun, h]
    exact Disp.run_eta _ _
  · rw [Ty.wrap_std _ _ h, run_stdWrite]
    unfold argRun
    generalize hty : s.ty = ty at h ⊢
    cases ty <;> first | rfl | exact absurd rfl h

/-- The value a slot holds is the one the reference means. -/
theorem get_slotFor {V : Type} (args : List (MacroArg V)) (scope : Str → V) (before : List PieceSyn)
    (ref : Option ArgRef) (spec : Option SpecSyn) (pre post : List Str)
    (hok : RefOkAt (positionals args).length ((nameds args).map Prod.fst) (bareCount before) ref) :
    ∃ v, valueFor args scope before ref = some v ∧
      Captured.get ⟨positionals args, (nameds args).map Prod.snd,
        (pre ++ (captureOf ((nameds args).map Prod.fst) (.arg ref spec) ++ post)).map scope⟩
        (slotFor ((nameds args).map Prod.fst) (bareCount before) pre.length ref) = some v := by
  rcases ref with _ | ds | n
  · simp only [RefOkAt] at hok
    exact ⟨(positionals args)[bareCount before], by simp [valueFor, hok],
      by simp [Captured.get, slotFor, hok]⟩
  · simp only [RefOkAt] at hok
    exact ⟨(positionals args)[numeralValue ds], by simp [valueFor, hok],
      by simp [Captured.get, slotFor, hok]⟩
  · simp only [valueFor]
    refine ⟨_, rfl, ?_⟩
    rw [lastNamed_eq]
    simp only [slotFor]
    rcases hi : namedIndex ((nameds args).map Prod.fst) n with _ | i
    · simp [Captured.get, captureOf, hi]
    · have hlt := namedIndex_lt _ _ _ hi
      simp only [List.length_map] at hlt
      simp [Captured.get, hlt]

theorem with_attrsDiff (s : SpecSyn) (st : Style) :
    st.with (DynRestyle.of (attrsDiff s.attrList)) = s.style st := by
  rcases st with ⟨f, b, i⟩
  simp only [SpecSyn.style, attrsDiff]
  cases ((s.attrList.filterMap Attr.fg?).getLast?).filter (fun c => c ≠ .Default) <;>
  cases ((s.attrList.filterMap Attr.bg?).getLast?).filter (fun c => c ≠ .Default) <;>
  cases ((s.attrList.filterMap Attr.intensity?).getLast?).filter (fun c => c ≠ .Normal) <;> rfl

theorem writes_lit (s : Str) (rest : Disp) (st : Style) (a : FormatterArgs) :
    writes (.writeStr s (Disp.try_ rest)) st a = ((s, st) :: (writes rest st a).1, (writes rest st a).2) := rfl

theorem run_lit {W : Type} [Write W] (s : Str) (rest : Disp) (st : Style) (a : FormatterArgs) (w : W) :
    (Disp.writeStr s (Disp.try_ rest)).run ⟨st, a, w⟩ =
      match Write.writeStr s st w with
      | (.ok (), w') => rest.run ⟨st, a, w'⟩
      | (r, w') => (r, ⟨st, a, w'⟩) := by
  simp only [Disp.run, Formatter.writeStr_eq]
  rcases Write.writeStr s st w with ⟨r, w'⟩
  cases r <;> rfl

theorem writes_run_treeProg (args : List (MacroArg ArgVal)) (scope : Str → ArgVal) (t before : List PieceSyn)
    (pre post : List Str) (st : Style) (a : FormatterArgs)
    (hok : PiecesOk (positionals args).length ((nameds args).map Prod.fst) (bareCount before) t) :
    let c : Captured := ⟨positionals args, (nameds args).map Prod.snd,
      (pre ++ (t.flatMap (captureOf ((nameds args).map Prod.fst)) ++ post)).map scope⟩
    let prog := runStmts c (stmtsFor ((nameds args).map Prod.fst) (bareCount before) pre.length t)
    writes prog st a = treeOutput args scope st before t ∧
    ∀ (W : Type) [Write W] (w : W), prog.run ⟨st, a, w⟩ =
      ((treeRun args scope st before t w).1, ⟨st, a, (treeRun args scope st before t w).2⟩) := by
  induction t generalizing before pre with
  | nil => exact ⟨rfl, fun W _ w => rfl⟩
  | cons p t ih =>
    intro c prog
    have hb : bareCount (before ++ [p]) = bareCount before + bareOf p := by
      simp only [bareCount, List.countP_append, List.countP_cons, List.countP_nil, bareOf]; omega
    have ih := ih (before ++ [p]) (pre ++ captureOf ((nameds args).map Prod.fst) p) (by rw [hb]; exact hok.2)
    have hc : c = ⟨positionals args, (nameds args).map Prod.snd,
        ((pre ++ captureOf ((nameds args).map Prod.fst) p) ++
          (t.flatMap (captureOf ((nameds args).map Prod.fst)) ++ post)).map scope⟩ := by
      simp only [c, List.flatMap_cons, List.append_assoc]
    simp only [← hc, hb, List.length_append] at ih
    obtain ⟨ih1, ih2⟩ := ih
    rcases p with s | _ | _ | ⟨ref, spec⟩
    · refine ⟨?_, fun W _ w => ?_⟩
      · have := writes_lit s (runStmts c (stmtsFor ((nameds args).map Prod.fst)
          (bareCount before + bareOf (.text s)) (pre.length + (captureOf ((nameds args).map Prod.fst) (.text s)).length) t)) st a
        rw [ih1] at this
        exact this
      · have := run_lit s (runStmts c (stmtsFor ((nameds args).map Prod.fst)
          (bareCount before + bareOf (.text s)) (pre.length + (captureOf ((nameds args).map Prod.fst) (.text s)).length) t)) st a w
        refine Eq.trans this ?_
        simp only [treeRun, pieceRun]
        rcases Write.writeStr s st w with ⟨r, w'⟩
        cases r with
        | ok u => exact ih2 W w'
        | _ => rfl
    · refine ⟨?_, fun W _ w => ?_⟩
      · have := writes_lit ['{'] (runStmts c (stmtsFor ((nameds args).map Prod.fst)
          (bareCount before + bareOf .openBrace) (pre.length + (captureOf ((nameds args).map Prod.fst) .openBrace).length) t)) st a
        rw [ih1] at this
        exact this
      · have := run_lit ['{'] (runStmts c (stmtsFor ((nameds args).map Prod.fst)
          (bareCount before + bareOf .openBrace) (pre.length + (captureOf ((nameds args).map Prod.fst) .openBrace).length) t)) st a w
        refine Eq.trans this ?_
        simp only [treeRun, pieceRun]
        rcases Write.writeStr ['{'] st w with ⟨r, w'⟩
        cases r with
        | ok u => exact ih2 W w'
        | _ => rfl
    · refine ⟨?_, fun W _ w => ?_⟩
      · have := writes_lit ['}'] (runStmts c (stmtsFor ((nameds args).map Prod.fst)
          (bareCount before + bareOf .closeBrace) (pre.length + (captureOf ((nameds args).map Prod.fst) .closeBrace).length) t)) st a
        rw [ih1] at this
        exact this
      · have := run_lit ['}'] (runStmts c (stmtsFor ((nameds args).map Prod.fst)
          (bareCount before + bareOf .closeBrace) (pre.length + (captureOf ((nameds args).map Prod.fst) .closeBrace).length) t)) st a w
        refine Eq.trans this ?_
        simp only [treeRun, pieceRun]
        rcases Write.writeStr ['}'] st w with ⟨r, w'⟩
        cases r with
        | ok u => exact ih2 W w'
        | _ => rfl
    · obtain ⟨v, hv, hget⟩ := get_slotFor args scope before ref spec pre
        (t.flatMap (captureOf ((nameds args).map Prod.fst)) ++ post) hok.1.1
      have hget' : c.get (slotFor ((nameds args).map Prod.fst) (bareCount before) pre.length ref) = some v := by
        rw [← hget]
        simp only [c, List.flatMap_cons, List.append_assoc]
      have hprog : prog = .withinArgs (specOf spec).options (.of (attrsDiff (specOf spec).attrList))
          (wrapArg (specOf spec).ty.trait v) (Disp.try_ (runStmts c (stmtsFor ((nameds args).map Prod.fst)
            (bareCount before + bareOf (.arg ref spec))
            (pre.length + (captureOf ((nameds args).map Prod.fst) (.arg ref spec)).length) t))) := by
        simp only [prog, stmtsFor, stmtFor, runStmts, hget']
      rw [hprog]
      refine ⟨?_, fun W _ w => ?_⟩
      · simp only [writes, with_attrsDiff, writes_wrapArg, treeOutput, pieceOutput, hv]
        rcases argOutput v (specOf spec) st with ⟨out, r⟩
        cases r with
        | ok u =>
          simp only [Disp.try_]
          rw [ih1]
        | err u => simp [Disp.try_, writes, ended]
        | panic => rfl
        | diverge => rfl
      · simp only [Disp.run, Formatter.withArgs, with_attrsDiff, run_wrapArg, treeRun, pieceRun, hv]
        rcases argRun v (specOf spec) st w with ⟨r, w'⟩
        cases r with
        | ok u => exact ih2 W w'
        | err u => rfl
        | panic => rfl
        | diverge => rfl

theorem treeProg_spec (args : List (MacroArg ArgVal)) (scope : Str → ArgVal) (t : List PieceSyn)
    (hok : RefsOk args t) (st : Style) (a : FormatterArgs) :
    writes (treeProg args scope t) st a = treeOutput args scope st [] t ∧
    ∀ (W : Type) [Write W] (w : W), (treeProg args scope t).run ⟨st, a, w⟩ =
      ((treeRun args scope st [] t w).1, ⟨st, a, (treeRun args scope st [] t w).2⟩) := by
  have h := writes_run_treeProg args scope t [] [] [] st a ((RefsOk_iff args t).2 hok)
  simp only [List.append_nil, List.nil_append] at h
  exact h

/-- `format_args!` on the string of a tree. -/
theorem formatArgs_tree {E : Env} (hE : E.Lawful) (args : List (MacroArg ArgVal)) (scope : Str → ArgVal)
    (t : List PieceSyn) (hd : Documented E t) (hs : Supported E t) :
    (PositionalFirst args ∧ RefsOk args t ∧ AllUsed args t) ∧
      formatArgs E (print t) args scope = .ok ⟨treeProg args scope t⟩ ∨
    ¬ (PositionalFirst args ∧ RefsOk args t ∧ AllUsed args t) ∧
      ∃ e, formatArgs E (print t) args scope = .error e := by
  unfold formatArgs
  rcases parse_cases (print t) args with ⟨h1, e1⟩ | ⟨h1, e1⟩
  · rw [e1]
    rcases formatArgsImpl_tree hE args t hd hs with ⟨h2, e2⟩ | ⟨h2, e, e2, -⟩
    · left
      refine ⟨⟨h1, h2⟩, ?_⟩
      simp only [bind, Except.bind, e2]
      rfl
    · right
      exact ⟨fun h => h2 h.2, e, by simp only [bind, Except.bind, e2]⟩
  · right
    exact ⟨fun h => h1 h.1, _, by rw [e1]; rfl⟩

theorem formatArgs_ok_tree {E : Env} (hE : E.Lawful) {format : Str} {args : List (MacroArg ArgVal)}
    {scope : Str → ArgVal} {x : Arguments} (h : formatArgs E format args scope = .ok x) :
    ∃ t, print t = format ∧ Documented E t ∧ Supported E t ∧ PositionalFirst args ∧ RefsOk args t ∧
      AllUsed args t ∧ x = ⟨treeProg args scope t⟩ := by
  by_cases ht : ∃ t, print t = format ∧ Documented E t ∧ Supported E t
  · obtain ⟨t, rfl, hd, hs⟩ := ht
    rcases formatArgs_tree hE args scope t hd hs with ⟨⟨h1, h2, h3⟩, e⟩ | ⟨-, e, he⟩
    · rw [e] at h
      exact ⟨t, rfl, hd, hs, h1, h2, h3, (Except.ok.inj h).symm⟩
    · rw [he] at h; cases h
  · exfalso
    unfold formatArgs at h
    rcases parse_cases format args with ⟨h1, e1⟩ | ⟨h1, e1⟩
    · rw [e1] at h
      rcases formatArgsImpl_no_tree hE ⟨format, positionals args, nameds args⟩ ht with e | e <;>
        · simp only [bind, Except.bind, e] at h; cases h
    · rw [e1] at h; cases h

end Stylish
