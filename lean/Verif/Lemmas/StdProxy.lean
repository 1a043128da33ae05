import Verif.Lemmas.StdWrite
import Verif.Lemmas.Formatter
import Verif.Spec.Std
/-
std formatting programs through the proxy.
-/

namespace Stylish

open Spec

theorem stdOptsOf_eq (kind : StdKind) (a : FormatterArgs) : stdOptsOf kind a = some (stdView kind a) := by
  cases kind
  · rw [stdOptsOf_tail, readTail_other]; rfl
  · rw [stdOptsOf_tail, readTail_debug]; rfl

theorem writes_viaProxy (p : StdProg) (st : Style) (a : FormatterArgs) :
    writes p.viaProxy st a = ((stdWrites p).1.map (fun s => (s, st)), (stdWrites p).2) := by
  induction p with
  | done r => rfl
  | panic => rfl
  | write s k ih => simp only [StdProg.viaProxy, writes, stdWrites, ih, List.map_cons]

theorem run_viaProxy {W : Type} [Write W] (p : StdProg) (st : Style) (a : FormatterArgs) (w : W) :
    p.viaProxy.run ⟨st, a, w⟩ =
      ((stdRun (fun s => Write.writeStr s st) p w).1,
        ⟨st, a, (stdRun (fun s => Write.writeStr s st) p w).2⟩) := by
  induction p generalizing w with
  | done r => rfl
  | panic => rfl
  | write s k ih =>
    have e : Formatter.writeStr s ⟨st, a, w⟩ =
        ((Write.writeStr s st w).1, ⟨st, a, (Write.writeStr s st w).2⟩) := by
      simp only [Formatter.writeStr, Formatter.onWrite, Act.bind_apply]
      rcases Write.writeStr s st w with ⟨r, w'⟩
      cases r <;> rfl
    simp only [StdProg.viaProxy, Disp.run, stdRun, e]
    rcases Write.writeStr s st w with ⟨r, w'⟩
    cases r with
    | ok u => exact ih _ _
    | err e => exact ih _ _
    | panic => rfl
    | diverge => rfl

theorem writes_stdWrite (kind : StdKind) (arg : StdFmt) (st : Style) (a : FormatterArgs) :
    writes (stdWrite kind arg) st a =
      ((stdWrites (arg.f (stdView kind a))).1.map (fun s => (s, st)),
        (stdWrites (arg.f (stdView kind a))).2) := by
  simp only [stdWrite, writes, stdOptsOf_eq]
  exact writes_viaProxy _ _ _

theorem run_stdWrite {W : Type} [Write W] (kind : StdKind) (arg : StdFmt) (st : Style)
    (a : FormatterArgs) (w : W) :
    (stdWrite kind arg).run ⟨st, a, w⟩ =
      ((stdRun (fun s => Write.writeStr s st) (arg.f (stdView kind a)) w).1,
        ⟨st, a, (stdRun (fun s => Write.writeStr s st) (arg.f (stdView kind a)) w).2⟩) := by
  simp only [stdWrite, Disp.run, stdOptsOf_eq]
  exact run_viaProxy _ _ _ _

end Stylish
