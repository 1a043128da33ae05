import Verif.Spec.Live
import Verif.Props.MacroArgs
/-
Showing values that have a state (Model/Live).
-/

namespace Stylish

open Nom Format Spec Spec.Syntax

variable {S : Type} {W : Type} [Write W]

theorem LiveDisp.run_eta (p : LiveDisp S) (f : Formatter W) (s : S) :
    p.run (f, s) = ((p.run (f, s)).1, ⟨f.style, f.format, (p.run (f, s)).2.1.write⟩, (p.run (f, s)).2.2) := by
  induction p generalizing f s with
  | done r => rfl
  | panic => rfl
  | get k ih => exact ih s f s
  | set s' next ih => exact ih f s'
  | writeStr t k ih =>
    simp only [LiveDisp.run, Formatter.writeStr_eq]
    rcases Write.writeStr t f.style f.write with ⟨r, w⟩
    cases r with
    | ok u => exact ih .ok ⟨f.style, f.format, w⟩ s
    | err u => exact ih .err ⟨f.style, f.format, w⟩ s
    | panic => rfl
    | diverge => rfl
  | within r body k _ ih =>
    simp only [LiveDisp.run]
    rcases body.run (f.with r, s) with ⟨res, sub, s'⟩
    cases res with
    | ok u => exact ih .ok ⟨f.style, f.format, sub.write⟩ s'
    | err u => exact ih .err ⟨f.style, f.format, sub.write⟩ s'
    | panic => rfl
    | diverge => rfl
  | withinArgs a r body k _ ih =>
    simp only [LiveDisp.run]
    rcases body.run (f.withArgs a r, s) with ⟨res, sub, s'⟩
    cases res with
    | ok u => exact ih .ok ⟨f.style, f.format, sub.write⟩ s'
    | err u => exact ih .err ⟨f.style, f.format, sub.write⟩ s'
    | panic => rfl
    | diverge => rfl
  | inspect k ih => exact ih f.style f.format f s

theorem run_liveProxy (p : LiveStd S) (st : Style) (a : FormatterArgs) (w : W) (s : S) :
    p.viaProxy.run (⟨st, a, w⟩, s) =
      ((liveStdRun (fun t => Write.writeStr t st) p (w, s)).1,
        ⟨st, a, (liveStdRun (fun t => Write.writeStr t st) p (w, s)).2.1⟩,
        (liveStdRun (fun t => Write.writeStr t st) p (w, s)).2.2) := by
  induction p generalizing w s with
  | done r => rfl
  | panic => rfl
  | get k ih => exact ih s w s
  | set s' next ih => exact ih w s'
  | write t k ih =>
    simp only [LiveStd.viaProxy, LiveDisp.run, liveStdRun, Formatter.writeStr_eq]
    rcases Write.writeStr t st w with ⟨r, w'⟩
    cases r with
    | ok u => exact ih .ok w' s
    | err u => exact ih .err w' s
    | panic => rfl
    | diverge => rfl

theorem run_liveWrap (v : LiveVal S) (sp : SpecSyn) (st : Style) (w : W) (s : S) :
    (v.wrap sp.ty.trait).run (⟨sp.style st, sp.options, w⟩, s) =
      ((liveArgRun v sp st (w, s)).1, ⟨sp.style st, sp.options, (liveArgRun v sp st (w, s)).2.1⟩,
        (liveArgRun v sp st (w, s)).2.2) := by
  by_cases h : sp.ty = .stylish
  · simp only [liveArgRun, h]
    exact LiveDisp.run_eta _ _ _
  · have e : v.wrap sp.ty.trait = liveStdWrite sp.ty.stdKind (v.std sp.ty.trait) := by
      generalize sp.ty = ty at h
      cases ty <;> first | rfl | exact absurd rfl h
    rw [e]
    have e2 : liveArgRun v sp st (w, s) = liveStdRun (fun text => Write.writeStr text (sp.style st))
        (v.std sp.ty.trait (stdView sp.ty.stdKind sp.options)) (w, s) := by
      unfold liveArgRun
      generalize hty : sp.ty = ty at h ⊢
      cases ty <;> first | rfl | exact absurd rfl h
    rw [e2]
    simp only [liveStdWrite, LiveDisp.run, stdOptsOf_eq]
    exact run_liveProxy _ _ _ _ _

theorem run_liveLit (t : Str) (rest : LiveDisp S) (st : Style) (a : FormatterArgs) (w : W) (s : S) :
    (LiveDisp.writeStr t (LiveDisp.try_ rest)).run (⟨st, a, w⟩, s) =
      match Write.writeStr t st w with
      | (.ok (), w') => rest.run (⟨st, a, w'⟩, s)
      | (r, w') => (r, ⟨st, a, w'⟩, s) := by
  simp only [LiveDisp.run, Formatter.writeStr_eq]
  rcases Write.writeStr t st w with ⟨r, w'⟩
  cases r <;> rfl

private theorem run_liveStmts_lit (t : Str) (rest : LiveDisp S) (st : Style) (a : FormatterArgs)
    (spec : Act (W × S) FmtError Unit)
    (ih : ∀ w s, rest.run (⟨st, a, w⟩, s) = ((spec (w, s)).1, ⟨st, a, (spec (w, s)).2.1⟩, (spec (w, s)).2.2))
    (w : W) (s : S) (out : Res FmtError Unit × W × S)
    (hout : out = match liveLit t st (w, s) with
      | (.ok (), p') => spec p'
      | stop => stop) :
    (LiveDisp.writeStr t (LiveDisp.try_ rest)).run (⟨st, a, w⟩, s) = (out.1, ⟨st, a, out.2.1⟩, out.2.2) := by
  subst hout
  rw [run_liveLit]
  simp only [liveLit]
  rcases Write.writeStr t st w with ⟨r, w'⟩
  cases r with
  | ok u => exact ih w' s
  | _ => rfl

theorem run_liveStmts (args : List (MacroArg (LiveVal S))) (scope : Str → LiveVal S) (t before : List PieceSyn)
    (pre post : List Str) (st : Style) (a : FormatterArgs)
    (hok : PiecesOk (positionals args).length ((nameds args).map Prod.fst) (bareCount before) t) (w : W) (s : S) :
    (liveStmts ⟨positionals args, (nameds args).map Prod.snd,
      (pre ++ (t.flatMap (captureOf ((nameds args).map Prod.fst)) ++ post)).map scope⟩
      (stmtsFor ((nameds args).map Prod.fst) (bareCount before) pre.length t)).run (⟨st, a, w⟩, s) =
      ((liveTreeRun args scope st before t (w, s)).1, ⟨st, a, (liveTreeRun args scope st before t (w, s)).2.1⟩,
        (liveTreeRun args scope st before t (w, s)).2.2) := by
  induction t generalizing before pre w s with
  | nil => rfl
  | cons p t ih =>
    have hb : bareCount (before ++ [p]) = bareCount before + bareOf p := by
      simp only [bareCount, List.countP_append, List.countP_cons, List.countP_nil, bareOf]; omega
    have ih := ih (before ++ [p]) (pre ++ captureOf ((nameds args).map Prod.fst) p) (by rw [hb]; exact hok.2)
    have hc : (pre ++ ((p :: t).flatMap (captureOf ((nameds args).map Prod.fst)) ++ post)).map scope =
        ((pre ++ captureOf ((nameds args).map Prod.fst) p) ++
          (t.flatMap (captureOf ((nameds args).map Prod.fst)) ++ post)).map scope := by
      simp only [List.flatMap_cons, List.append_assoc]
    rw [hc]
    generalize hcc : (⟨positionals args, (nameds args).map Prod.snd,
        ((pre ++ captureOf ((nameds args).map Prod.fst) p) ++
          (t.flatMap (captureOf ((nameds args).map Prod.fst)) ++ post)).map scope⟩ : Captured (LiveVal S)) = c at ih ⊢
    simp only [hb, List.length_append] at ih
    rcases p with x | _ | _ | ⟨ref, spec⟩
    · exact run_liveStmts_lit x _ st a _ ih w s _ rfl
    · exact run_liveStmts_lit ['{'] _ st a _ ih w s _ rfl
    · exact run_liveStmts_lit ['}'] _ st a _ ih w s _ rfl
    · obtain ⟨v, hv, hget⟩ := get_slotFor args scope before ref spec pre
        (t.flatMap (captureOf ((nameds args).map Prod.fst)) ++ post) hok.1.1
      have hget' : c.get (slotFor ((nameds args).map Prod.fst) (bareCount before) pre.length ref) = some v := by
        rw [← hget, ← hcc]
        simp only [List.append_assoc]
      have hprog : liveStmts c (stmtsFor ((nameds args).map Prod.fst) (bareCount before) pre.length (.arg ref spec :: t)) =
          .withinArgs (specOf spec).options (.of (attrsDiff (specOf spec).attrList))
          (v.wrap (specOf spec).ty.trait) (LiveDisp.try_ (liveStmts c (stmtsFor ((nameds args).map Prod.fst)
            (bareCount before + bareOf (.arg ref spec))
            (pre.length + (captureOf ((nameds args).map Prod.fst) (.arg ref spec)).length) t))) := by
        simp only [stmtsFor, stmtFor, liveStmts, hget']
      rw [hprog]
      simp only [LiveDisp.run, Formatter.withArgs, with_attrsDiff, run_liveWrap, liveTreeRun, livePieceRun, hv]
      rcases liveArgRun v (specOf spec) st (w, s) with ⟨r, w', s'⟩
      cases r with
      | ok u => exact ih w' s'
      | err u => rfl
      | panic => rfl
      | diverge => rfl

/-- The whole call: the arguments are evaluated, then the pieces are run. -/
theorem evalLive_spec {E : Env} (hE : E.Lawful) (format : Str) (args : List (MacroArg (Expr S (LiveVal S))))
    (scope : Str → LiveVal S) (x : Expansion (Expr S (LiveVal S))) (h : formatArgsMacro E format args = .ok x)
    (t : List PieceSyn) (ht : Reads E format t) (s : S) :
    (x.evalLive scope s).2 = (evalArgs args s).2 ∧
    ∀ (f : Formatter W) (s' : S), (x.evalLive scope s).1.showIn (f, s') =
      ((liveTreeRun (evalArgs args s).1 scope f.style [] t (f.write, s')).1,
        { f with write := (liveTreeRun (evalArgs args s).1 scope f.style [] t (f.write, s')).2.1 },
        (liveTreeRun (evalArgs args s).1 scope f.style [] t (f.write, s')).2.2) := by
  obtain ⟨rfl, hd, hs⟩ := ht
  rcases Props.formatArgsMacro_tree hE args t hd hs with ⟨⟨hp, hr, hu⟩, e⟩ | ⟨-, e, he, -⟩
  rotate_left
  · rw [he] at h; cases h
  rw [e] at h
  obtain rfl := Except.ok.inj h
  obtain ⟨es, ns, rfl⟩ := hp
  have hpos := Props.positionals_split es ns
  have hnam := Props.nameds_split es ns
  have hev := Props.evalArgs_positional es (ns.map (fun p => MacroArg.named p.1 p.2)) s
  rw [Props.evalArgs_named] at hev
  generalize hA : (evalArgs (es.map MacroArg.positional ++ ns.map (fun p => MacroArg.named p.1 p.2)) s) = A at *
  subst hev
  have hlen : (ns.map Prod.fst).length = (evalTuple (ns.map Prod.snd) (evalTuple es s).2).1.length := by
    rw [Props.evalTuple_length]; simp
  have hpos' := Props.positionals_split (evalTuple es s).1
    ((ns.map Prod.fst).zip (evalTuple (ns.map Prod.snd) (evalTuple es s).2).1)
  have hnam' := Props.nameds_split (evalTuple es s).1
    ((ns.map Prod.fst).zip (evalTuple (ns.map Prod.snd) (evalTuple es s).2).1)
  have hfst : ((ns.map Prod.fst).zip (evalTuple (ns.map Prod.snd) (evalTuple es s).2).1).map Prod.fst =
      ns.map Prod.fst := List.map_fst_zip (Nat.le_of_eq hlen)
  have hsnd : ((ns.map Prod.fst).zip (evalTuple (ns.map Prod.snd) (evalTuple es s).2).1).map Prod.snd =
      (evalTuple (ns.map Prod.snd) (evalTuple es s).2).1 := List.map_snd_zip (Nat.le_of_eq hlen.symm)
  have hok := Props.accept_congr _ ((evalTuple es s).1.map MacroArg.positional ++
    ((ns.map Prod.fst).zip (evalTuple (ns.map Prod.snd) (evalTuple es s).2).1).map
      (fun p => MacroArg.named p.1 p.2)) t (by rw [hpos, hpos', Props.evalTuple_length])
      (by rw [hnam, hnam', hfst]) ⟨hr, hu⟩
  refine ⟨?_, fun f s' => ?_⟩
  · simp only [expansionOf, Expansion.evalLive, hpos, hnam, Props.evalTuple_pure]
  · have key := run_liveStmts _ scope t [] [] [] f.style f.format ((RefsOk_iff _ t).2 hok.1) f.write s'
    rw [hpos', hnam', hfst, hsnd] at key
    simp only [List.append_nil, List.nil_append] at key
    simp only [expansionOf, Expansion.evalLive, hpos, hnam, Props.evalTuple_pure, LiveArguments.showIn, Act.bind_apply]
    have e2 : (⟨f.style, f.format, f.write⟩ : Formatter W) = f := rfl
    rw [e2] at key
    erw [key]
    generalize liveTreeRun _ scope f.style [] t (f.write, s') = out
    rcases out with ⟨r, w', s''⟩
    cases r <;> rfl

/-! ### Without a state -/

/-- The program without a state that does what `p` does from the state `s`, and then goes on with `k`. -/
def LiveDisp.from (p : LiveDisp S) (s : S) (st : Style) (a : FormatterArgs) (k : FmtResult → S → Disp) : Disp :=
  match p with
  | .done r => k r s
  | .panic => .panic
  | .get g => (g s).from s st a k
  | .set s' next => next.from s' st a k
  | .writeStr t g => .within (.of st) (.writeStr t .done) fun r => (g r).from s st a k
  | .within r body g => body.from s (st.with r) a fun res s' => (g res).from s' st a k
  | .withinArgs a' r body g => body.from s (st.with r) a' fun res s' => (g res).from s' st a k
  | .inspect g => (g st a).from s st a k

theorem run_from (p : LiveDisp S) (s : S) (st : Style) (a : FormatterArgs) (k : FmtResult → S → Disp)
    (st0 : Style) (a0 : FormatterArgs) (w : W) :
    (p.from s st a k).run ⟨st0, a0, w⟩ =
      match p.run (⟨st, a, w⟩, s) with
      | (.ok (), f, s') => (k .ok s').run ⟨st0, a0, f.write⟩
      | (.err (), f, s') => (k .err s').run ⟨st0, a0, f.write⟩
      | (.panic, f, _) => (.panic, ⟨st0, a0, f.write⟩)
      | (.diverge, f, _) => (.diverge, ⟨st0, a0, f.write⟩) := by
  induction p generalizing s st a k w with
  | done r => cases r <;> rfl
  | panic => rfl
  | get g ih => exact ih s s st a k w
  | set s' next ih => exact ih s' st a k w
  | writeStr t g ih =>
    simp only [LiveDisp.from, Disp.run, LiveDisp.run, Formatter.writeStr_eq]
    show resume _ _ = _
    have e : ((⟨st0, a0, w⟩ : Formatter W).with (DynRestyle.of st)) = ⟨st, a0, w⟩ := rfl
    rw [e]
    dsimp only
    rcases Write.writeStr t st w with ⟨r, w'⟩
    cases r with
    | ok u => exact ih .ok s st a k w'
    | err u => exact ih .err s st a k w'
    | panic => rfl
    | diverge => rfl
  | within r body g ihb ih =>
    simp only [LiveDisp.from, LiveDisp.run]
    rw [ihb]
    have e : ((⟨st, a, w⟩ : Formatter W).with r) = ⟨st.with r, a, w⟩ := rfl
    rw [e]
    rcases body.run ((⟨st.with r, a, w⟩ : Formatter W), s) with ⟨res, sub, s'⟩
    cases res with
    | ok u => exact ih .ok s' st a k sub.write
    | err u => exact ih .err s' st a k sub.write
    | panic => rfl
    | diverge => rfl
  | withinArgs a' r body g ihb ih =>
    simp only [LiveDisp.from, LiveDisp.run]
    rw [ihb]
    have e : ((⟨st, a, w⟩ : Formatter W).withArgs a' r) = ⟨st.with r, a', w⟩ := rfl
    rw [e]
    rcases body.run ((⟨st.with r, a', w⟩ : Formatter W), s) with ⟨res, sub, s'⟩
    cases res with
    | ok u => exact ih .ok s' st a k sub.write
    | err u => exact ih .err s' st a k sub.write
    | panic => rfl
    | diverge => rfl
  | inspect g ih => exact ih st a s st a k w

/-! ### Notes -/

section
variable {L : Type}

theorem run_besideDisp (p : LiveDisp S) (f : Formatter W) (s : S) (l : L) :
    (besideDisp p).run (f, (s, l)) = ((p.run (f, s)).1, (p.run (f, s)).2.1, ((p.run (f, s)).2.2, l)) := by
  induction p generalizing f s with
  | done r => rfl
  | panic => rfl
  | get k ih => exact ih s f s
  | set s' next ih => exact ih f s'
  | writeStr t k ih =>
    simp only [besideDisp, LiveDisp.run]
    rcases Formatter.writeStr t f with ⟨r, g⟩
    cases r with
    | ok u => exact ih .ok g s
    | err u => exact ih .err g s
    | panic => rfl
    | diverge => rfl
  | within r body k ihb ih =>
    simp only [besideDisp, LiveDisp.run, ihb]
    rcases body.run (f.with r, s) with ⟨res, sub, s'⟩
    cases res with
    | ok u => exact ih .ok (f.endBorrow sub) s'
    | err u => exact ih .err (f.endBorrow sub) s'
    | panic => rfl
    | diverge => rfl
  | withinArgs a r body k ihb ih =>
    simp only [besideDisp, LiveDisp.run, ihb]
    rcases body.run (f.withArgs a r, s) with ⟨res, sub, s'⟩
    cases res with
    | ok u => exact ih .ok (f.endBorrow sub) s'
    | err u => exact ih .err (f.endBorrow sub) s'
    | panic => rfl
    | diverge => rfl
  | inspect k ih => exact ih f.style f.format f s

omit [Write W] in
theorem run_besideStd (put : Str → Act W FmtError Unit) (p : LiveStd S) (w : W) (s : S) (l : L) :
    liveStdRun put (besideStd p) (w, (s, l)) =
      ((liveStdRun put p (w, s)).1, (liveStdRun put p (w, s)).2.1, ((liveStdRun put p (w, s)).2.2, l)) := by
  induction p generalizing w s with
  | done r => rfl
  | panic => rfl
  | get k ih => exact ih s w s
  | set s' next ih => exact ih w s'
  | write t k ih =>
    simp only [besideStd, liveStdRun]
    rcases put t w with ⟨r, w'⟩
    cases r with
    | ok u => exact ih .ok w' s
    | err u => exact ih .err w' s
    | panic => rfl
    | diverge => rfl

/-- A value that notes when it is shown notes it once. -/
theorem liveArgRun_noting (x : L × LiveVal S) (sp : SpecSyn) (st : Style) (w : W) (s : S) (l : List L) :
    liveArgRun (noting x) sp st (w, (s, l)) =
      ((liveArgRun x.2 sp st (w, s)).1, (liveArgRun x.2 sp st (w, s)).2.1,
        ((liveArgRun x.2 sp st (w, s)).2.2, l ++ [x.1])) := by
  unfold liveArgRun
  generalize sp.ty = ty
  cases ty <;>
    first
    | exact run_besideStd _ _ w s (l ++ [x.1])
    | (simp only [noting, LiveDisp.run, run_besideDisp])

end

section
variable {X Y : Type} (g : X → Y)

theorem positionals_mapArg (args : List (MacroArg X)) :
    positionals (args.map (mapArg g)) = (positionals args).map g := by
  induction args with
  | nil => rfl
  | cons x xs ih =>
    cases x with
    | positional e => exact congrArg (g e :: ·) ih
    | named n e => exact ih

theorem nameds_mapArg (args : List (MacroArg X)) :
    nameds (args.map (mapArg g)) = (nameds args).map fun p => (p.1, g p.2) := by
  induction args with
  | nil => rfl
  | cons x xs ih =>
    cases x with
    | positional e => exact ih
    | named n e => exact congrArg ((n, g e) :: ·) ih

theorem lastNamed_mapArg (args : List (MacroArg X)) (n : Str) :
    lastNamed (args.map (mapArg g)) n = (lastNamed args n).map g := by
  unfold lastNamed
  rw [nameds_mapArg]
  generalize nameds args = ns
  have : (ns.map fun p => (p.1, g p.2)).filter (fun p => p.1 = n) =
      (ns.filter fun p => p.1 = n).map fun p => (p.1, g p.2) := by
    rw [List.filter_map]; rfl
  rw [this, List.getLast?_map]
  cases (ns.filter fun p => p.1 = n).getLast? <;> rfl

theorem valueFor_mapArg (args : List (MacroArg X)) (scope : Str → X) (before : List PieceSyn) (ref : Option ArgRef) :
    valueFor (args.map (mapArg g)) (fun n => g (scope n)) before ref = (valueFor args scope before ref).map g := by
  rcases ref with _ | ⟨ds | n⟩
  · simp only [valueFor, positionals_mapArg, List.getElem?_map]
  · simp only [valueFor, positionals_mapArg, List.getElem?_map]
  · simp only [valueFor, lastNamed_mapArg]
    cases lastNamed args n <;> rfl

theorem evalArgs_pure {St : Type} (args : List (MacroArg X)) (s : St) :
    evalArgs (args.map (mapArg fun x => (pureExpr (g x) : Expr St Y))) s = (args.map (mapArg g), s) := by
  induction args with
  | nil => rfl
  | cons x xs ih =>
    cases x with
    | positional e => simp only [List.map_cons, mapArg, evalArgs, pureExpr] at ih ⊢; rw [ih]
    | named n e => simp only [List.map_cons, mapArg, evalArgs, pureExpr] at ih ⊢; rw [ih]

end

/-- The notes taken are those of the placeholders in order, up to where the run ends. -/
theorem liveTreeRun_noting {L : Type} (args : List (MacroArg (L × LiveVal S))) (scope : Str → L × LiveVal S) (st : Style)
    (before t : List PieceSyn) (w : W) (s : S) (l : List L) :
    ∃ notes, (liveTreeRun (args.map (mapArg noting)) (fun n => noting (scope n)) st before t (w, (s, l))).2.2.2 =
        l ++ notes ∧
      notes <+: labelsShown args scope before t ∧
      ((liveTreeRun (args.map (mapArg noting)) (fun n => noting (scope n)) st before t (w, (s, l))).1 = .ok () →
        notes = labelsShown args scope before t) := by
  induction t generalizing before w s l with
  | nil => exact ⟨[], by simp [liveTreeRun], List.nil_prefix, fun _ => rfl⟩
  | cons p t ih =>
    have lit : ∀ (x : Str), (labelsShown args scope before (p :: t) = labelsShown args scope (before ++ [p]) t) →
        (livePieceRun (W := W) (args.map (mapArg noting)) (fun n => noting (scope n)) before st p = liveLit x st) →
        ∃ notes, (liveTreeRun (args.map (mapArg noting)) (fun n => noting (scope n)) st before (p :: t) (w, (s, l))).2.2.2 =
            l ++ notes ∧
          notes <+: labelsShown args scope before (p :: t) ∧
          ((liveTreeRun (args.map (mapArg noting)) (fun n => noting (scope n)) st before (p :: t) (w, (s, l))).1 = .ok () →
            notes = labelsShown args scope before (p :: t)) := by
      intro x h1 h2
      simp only [liveTreeRun, h1, h2, liveLit]
      rcases Write.writeStr x st w with ⟨r, w'⟩
      cases r with
      | ok u => exact ih (before ++ [p]) w' s l
      | _ => exact ⟨[], by simp, List.nil_prefix, by simp⟩
    rcases p with x | _ | _ | ⟨ref, spec⟩
    · exact lit x rfl rfl
    · exact lit ['{'] rfl rfl
    · exact lit ['}'] rfl rfl
    · simp only [liveTreeRun, livePieceRun, valueFor_mapArg, labelsShown]
      rcases hv : valueFor args scope before ref with _ | v
      · exact ⟨[], by simp, List.nil_prefix, by simp⟩
      · simp only [Option.map_some, liveArgRun_noting, Option.toList_some]
        rcases liveArgRun v.2 (specOf spec) st (w, s) with ⟨r, w', s'⟩
        cases r with
        | ok u =>
          obtain ⟨notes, h1, h2, h3⟩ := ih (before ++ [.arg ref spec]) w' s' (l ++ [v.1])
          refine ⟨v.1 :: notes, by simpa using h1, ?_, fun h => ?_⟩
          · exact List.cons_prefix_cons.2 ⟨rfl, h2⟩
          · exact congrArg (v.1 :: ·) (h3 h)
        | _ =>
          refine ⟨[v.1], rfl, ?_, by simp⟩
          exact List.prefix_append _ _

/-! ### Values without a state -/

theorem run_stillDisp (p : Disp) (f : Formatter W) (s : S) :
    (stillDisp p).run (f, s) = ((p.run f).1, (p.run f).2, s) := by
  induction p generalizing f with
  | done r => rfl
  | panic => rfl
  | writeStr t k ih =>
    simp only [stillDisp, LiveDisp.run, Disp.run]
    rcases Formatter.writeStr t f with ⟨r, g⟩
    cases r with
    | ok u => exact ih .ok g
    | err u => exact ih .err g
    | panic => rfl
    | diverge => rfl
  | within r body k ihb ih =>
    simp only [stillDisp, LiveDisp.run, Disp.run, ihb]
    rcases body.run (f.with r) with ⟨res, sub⟩
    cases res with
    | ok u => exact ih .ok (f.endBorrow sub)
    | err u => exact ih .err (f.endBorrow sub)
    | panic => rfl
    | diverge => rfl
  | withinArgs a r body k ihb ih =>
    simp only [stillDisp, LiveDisp.run, Disp.run, ihb]
    rcases body.run (f.withArgs a r) with ⟨res, sub⟩
    cases res with
    | ok u => exact ih .ok (f.endBorrow sub)
    | err u => exact ih .err (f.endBorrow sub)
    | panic => rfl
    | diverge => rfl
  | inspect k ih => exact ih f.style f.format f

omit [Write W] in
theorem run_stillStd (put : Str → Act W FmtError Unit) (p : StdProg) (w : W) (s : S) :
    liveStdRun put (stillStd p) (w, s) = ((stdRun put p w).1, (stdRun put p w).2, s) := by
  induction p generalizing w with
  | done r => rfl
  | panic => rfl
  | write t k ih =>
    simp only [stillStd, liveStdRun, stdRun]
    rcases put t w with ⟨r, w'⟩
    cases r with
    | ok u => exact ih .ok w'
    | err u => exact ih .err w'
    | panic => rfl
    | diverge => rfl

theorem liveArgRun_still (v : ArgVal) (sp : SpecSyn) (st : Style) (w : W) (s : S) :
    liveArgRun (still v) sp st (w, s) = ((argRun v sp st w).1, (argRun v sp st w).2, s) := by
  unfold liveArgRun argRun
  generalize sp.ty = ty
  cases ty <;>
    first
    | exact run_stillStd _ _ w s
    | (simp only [still, run_stillDisp])

theorem liveTreeRun_still (args : List (MacroArg ArgVal)) (scope : Str → ArgVal) (st : Style)
    (before t : List PieceSyn) (w : W) (s : S) :
    liveTreeRun (args.map (mapArg still)) (fun n => still (scope n)) st before t (w, s) =
      ((treeRun args scope st before t w).1, (treeRun args scope st before t w).2, s) := by
  induction t generalizing before w with
  | nil => rfl
  | cons p t ih =>
    have e : livePieceRun (args.map (mapArg still)) (fun n => still (scope n)) before st p (w, s) =
        ((pieceRun args scope before st p w).1, (pieceRun args scope before st p w).2, s) := by
      rcases p with x | _ | _ | ⟨ref, spec⟩
      · rfl
      · rfl
      · rfl
      · simp only [livePieceRun, pieceRun, valueFor_mapArg]
        rcases valueFor args scope before ref with _ | v
        · rfl
        · exact liveArgRun_still v _ st w s
    simp only [liveTreeRun, treeRun, e]
    rcases pieceRun args scope before st p w with ⟨r, w'⟩
    cases r with
    | ok u => exact ih (before ++ [p]) w'
    | _ => rfl

end Stylish
