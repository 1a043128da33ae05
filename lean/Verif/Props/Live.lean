import Verif.Lemmas.Live
/-
C102: values that change as they are shown.
-/

namespace Stylish.Props

open Nom Format Spec Spec.Syntax

variable {S W : Type} [Write W]

/-- C102: in `write!(w, format, ..)` the argument expressions are evaluated in the order written, each once; then the
pieces of the format string are run in order: a literal is written, a placeholder shows its value, once, in the style and
with the options it says; the first piece that fails is the last. The state outside the writer goes from one to the next
and nothing else touches it. -/
theorem C102_in_order {E : Env} (hE : E.Lawful) (format : Str) (args : List (MacroArg (Expr S (LiveVal S))))
    (scope : Str → LiveVal S) (act : Act (W × S) FmtError Unit) (h : liveWrite E format args scope = .ok act)
    (t : List PieceSyn) (ht : Reads E format t) (w : W) (s : S) :
    act (w, s) = liveTreeRun (evalArgs args s).1 scope Style.default [] t (w, (evalArgs args s).2) := by
  unfold liveWrite at h
  rcases hx : formatArgsMacro E format args with e | x
  · rw [hx] at h; cases h
  · rw [hx] at h
    obtain rfl := Except.ok.inj h
    obtain ⟨h1, h2⟩ := evalLive_spec (W := W) hE format args scope x hx t ht s
    simp only [LiveArguments.writeFmt]
    rw [h2, h1]
    rfl

/-- C102, for a `format_args!` that is shown later, or in another formatter, or more than once: building it evaluates
the arguments and shows nothing; each time it is shown the pieces are run, from the state as it is then. -/
theorem C102_each_time {E : Env} (hE : E.Lawful) (format : Str) (args : List (MacroArg (Expr S (LiveVal S))))
    (scope : Str → LiveVal S) (x : Expansion (Expr S (LiveVal S))) (h : formatArgsMacro E format args = .ok x)
    (t : List PieceSyn) (ht : Reads E format t) (s : S) :
    (x.evalLive scope s).2 = (evalArgs args s).2 ∧
    ∀ (f : Formatter W) (later : S), (x.evalLive scope s).1.showIn (f, later) =
      ((liveTreeRun (evalArgs args s).1 scope f.style [] t (f.write, later)).1,
        { f with write := (liveTreeRun (evalArgs args s).1 scope f.style [] t (f.write, later)).2.1 },
        (liveTreeRun (evalArgs args s).1 scope f.style [] t (f.write, later)).2.2) :=
  evalLive_spec hE format args scope x h t ht s

/-- C102, with a list of notes: if every value, whenever it is shown, adds its label to a list, then after the call the
list has grown by the labels of the values of the placeholders, one for each placeholder, in their order; or by an
initial part of these, if the call does not return `Ok`. -/
theorem C102_shown_once {L : Type} {E : Env} (hE : E.Lawful) (format : Str) (args : List (MacroArg (L × LiveVal S)))
    (scope : Str → L × LiveVal S) (act : Act (W × S × List L) FmtError Unit)
    (h : liveWrite E format (args.map (mapArg fun x => pureExpr (noting x))) (fun n => noting (scope n)) = .ok act)
    (t : List PieceSyn) (ht : Reads E format t) (w : W) (s : S) (l : List L) :
    ∃ notes, (act (w, s, l)).2.2.2 = l ++ notes ∧ notes <+: labelsShown args scope [] t ∧
      ((act (w, s, l)).1 = .ok () → notes = labelsShown args scope [] t) := by
  rw [C102_in_order hE format _ _ act h t ht w (s, l), evalArgs_pure]
  exact liveTreeRun_noting args scope Style.default [] t w s l

/-- C102: from a given state, a `format_args!` with such values does on every writer what one with values without a state
does; so what is proved of the output of those holds of it. -/
theorem C102_like_stateless (x : LiveArguments S) (s : S) :
    ∃ y : Arguments, ∀ (W : Type) [Write W],
      (∀ w : W, Write.writeFmt y w = ((x.writeFmt (w, s)).1, (x.writeFmt (w, s)).2.1)) ∧
      (∀ f : Formatter W, Formatter.writeFmt y f = ((x.showIn (f, s)).1, (x.showIn (f, s)).2.1)) := by
  refine ⟨⟨.inspect fun st a => x.f.from s st a fun r _ => .done r⟩, fun W _ => ?_⟩
  have key : ∀ f : Formatter W, Formatter.writeFmt ⟨.inspect fun st a => x.f.from s st a fun r _ => .done r⟩ f =
      ((x.showIn (f, s)).1, (x.showIn (f, s)).2.1) := by
    intro f
    rw [Formatter.writeFmt, LiveArguments.showIn, Act.bind_apply, Act.bind_apply]
    have e := run_from x.f s f.style f.format (fun r _ => .done r) f.style f.format f.write
    have e2 : (⟨f.style, f.format, f.write⟩ : Formatter W) = f := rfl
    have e3 := LiveDisp.run_eta x.f f s
    rw [e2] at e
    have e4 : (Display.fmt (⟨.inspect fun st a => x.f.from s st a fun r _ => .done r⟩ : Arguments)).run f =
        (x.f.from s f.style f.format fun r _ => .done r).run f := rfl
    rw [e4, e]
    generalize x.f.run (f, s) = out at e3 ⊢
    rcases out with ⟨r, g, s'⟩
    rw [e3]
    cases r <;> rfl
  refine ⟨fun w => ?_, key⟩
  simp only [Write.writeFmt, LiveArguments.writeFmt, key]

private theorem splitArgs_map {X Y : Type} (g : X → Y) (b : Bool) (pos : List X) (named : List (Str × X))
    (args : List (MacroArg X)) :
    splitArgs b (pos.map g) (named.map fun p => (p.1, g p.2)) (args.map (mapArg g)) =
      match splitArgs b pos named args with
      | .ok (ps, ns) => .ok (ps.map g, ns.map fun p => (p.1, g p.2))
      | .error e => .error e := by
  induction args generalizing b pos named with
  | nil => rfl
  | cons a args ih =>
    cases a with
    | positional e =>
      cases b
      · have := ih false (pos ++ [e]) named
        simpa [splitArgs, mapArg] using this
      · rfl
    | named n e =>
      have := ih true pos (named ++ [(n, e)])
      simpa [splitArgs, mapArg] using this

private theorem formatArgsMacro_map {X Y : Type} (g : X → Y) (E : Env) (format : Str) (args : List (MacroArg X)) :
    formatArgsMacro E format (args.map (mapArg g)) =
      match formatArgsMacro E format args with
      | .ok x => .ok ⟨x.positional.map g, x.named.map g, x.implicit, x.statements⟩
      | .error e => .error e := by
  have h := splitArgs_map g false [] [] args
  simp only [List.map_nil] at h
  unfold formatArgsMacro ArgsInput.parse
  rw [h]
  rcases splitArgs false [] [] args with e | ⟨ps, ns⟩
  · rfl
  · simp only [bind, Except.bind, formatArgsImpl, List.length_map, List.map_map, Function.comp_def]
    rcases parsePieces E format with e | pieces
    · rfl
    · dsimp only
      rcases genPieces ps.length (ns.map Prod.fst) ⟨[], [], [], 0⟩ pieces with e | ⟨stmts, st⟩
      · rfl
      · dsimp only
        by_cases hu : hasUnused ps.length (ns.map Prod.fst) st = true
        · have hu' : hasUnused ps.length (ns.map fun p => p.1) st = true := hu
          simp only [hu, if_true]
        · have hu' : ¬ hasUnused ps.length (ns.map fun p => p.1) st = true := hu
          rw [if_neg hu, if_neg hu']
          simp only [List.map_map, Function.comp_def]

private theorem formatArgs_macro (E : Env) (format : Str) (args : List (MacroArg ArgVal)) (scope : Str → ArgVal) :
    formatArgs E format args scope =
      match formatArgsMacro E format args with
      | .ok x => .ok ⟨runStmts ⟨x.positional, x.named, x.implicit.map scope⟩ x.statements⟩
      | .error e => .error e := by
  unfold formatArgs formatArgsMacro
  rcases ArgsInput.parse format args with e | input
  · rfl
  · simp only [bind, Except.bind]
    rcases formatArgsImpl E input with e | x <;> rfl

/-- C102: on values that do not touch the state, all this is what the other claims are about, and the state stays. -/
theorem C102_stateless {E : Env} (hE : E.Lawful) (format : Str) (args : List (MacroArg ArgVal)) (scope : Str → ArgVal) :
    (∀ e, liveWrite (W := W) (S := S) E format (args.map (mapArg fun v => pureExpr (still v))) (fun n => still (scope n)) =
      .error e ↔ formatArgs E format args scope = .error e) ∧
    ∀ act, liveWrite (W := W) (S := S) E format (args.map (mapArg fun v => pureExpr (still v))) (fun n => still (scope n)) =
      .ok act → ∃ x, formatArgs E format args scope = .ok x ∧
        ∀ w s, act (w, s) = ((Write.writeFmt x w).1, (Write.writeFmt x w).2, s) := by
  refine ⟨fun e => ?_, fun act h => ?_⟩
  · unfold liveWrite
    rw [formatArgsMacro_map, formatArgs_macro]
    rcases hm : formatArgsMacro E format args with e' | x
    · constructor <;> intro h <;> (obtain rfl := Except.error.inj h; rfl)
    · simp [bind, Except.bind, pure, Except.pure]
  · have hx : ∃ x, formatArgs E format args scope = .ok x := by
      unfold liveWrite at h
      rw [formatArgsMacro_map] at h
      rw [formatArgs_macro]
      rcases hm : formatArgsMacro E format args with e | x
      · rw [hm] at h; cases h
      · exact ⟨_, rfl⟩
    obtain ⟨x, hx⟩ := hx
    refine ⟨x, hx, fun w s => ?_⟩
    obtain ⟨t, h1, h2, h3, -⟩ := formatArgs_ok_tree hE hx
    rw [C102_in_order hE format _ _ act h t ⟨h1, h2, h3⟩ w s, evalArgs_pure, liveTreeRun_still]
    have := C46_any_writer hE format args scope x hx t ⟨h1, h2, h3⟩ W (Formatter.new w)
    simp only [Write.writeFmt, this]
    rfl

/-- Non-vacuity: a counter, which shows how often it has been shown, in bold from the second time on; and a value that
can be shown only once, and panics afterwards. -/
def counter : LiveVal Nat where
  std := fun _ _ => .get fun n => .set (n + 1) (.write (str (toString (n + 1))) .done)
  stylish := .get fun n => .set (n + 1)
    (if n = 0 then .writeStr (str (toString (n + 1))) .done
     else .within (.of Intensity.Bold) (.writeStr (str (toString (n + 1))) .done) .done)

def once : LiveVal Nat where
  std := fun _ _ => .get fun n => if n = 0 then .set 1 (.write ['!'] .done) else .panic
  stylish := .get fun n => if n = 0 then .set 1 (.writeStr ['!'] .done) else .panic

example :
    ((liveWrite (W := StyString) asciiEnv (str "{0:s},{0}{c:s}") [.positional (pureExpr counter)] (fun _ => counter)).toOption.map
      fun act => let out := act (StyString.new, 0); (out.1, out.2.1.string, out.2.2)) = some (.ok (), str "1,23", 3) ∧
    ((liveWrite (W := StyString) asciiEnv (str "{0}") [.positional fun n => (counter, n + 5)] (fun _ => counter)).toOption.map
      fun act => let out := act (StyString.new, 0); (out.1, out.2.1.string, out.2.2)) = some (.ok (), str "6", 6) ∧
    ((liveWrite (W := StyString) asciiEnv (str "{0}") [.positional (pureExpr once)] (fun _ => counter)).toOption.map
      fun act => let out := act (StyString.new, 0); (out.1, out.2.1.string, out.2.2)) = some (.ok (), ['!'], 1) ∧
    ((liveWrite (W := StyString) asciiEnv (str "{0}{0}") [.positional (pureExpr once)] (fun _ => counter)).toOption.map
      fun act => let out := act (StyString.new, 0); (out.1, out.2.1.string, out.2.2)) = some (.panic, ['!'], 1) := by
  decide +kernel

/-- Non-vacuity of the notes: labels of three placeholders. -/
example :
    ((liveWrite (W := StyString) asciiEnv (str "{0:s},{0}{c:s}")
      ([.positional (7, counter)].map (mapArg fun x => pureExpr (noting x))) (fun _ => noting (9, counter))).toOption.map
      fun act => (act (StyString.new, 0, [])).2.2.2) = some [7, 7, 9] := by
  decide +kernel

end Stylish.Props
