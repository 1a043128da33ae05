import Verif.Props.Propagate
import Verif.Props.Text
/-
C59: the library does not panic by itself: formatting panics only if a value's own implementation, or the stream
written to, does.
-/

namespace Stylish.Props

open Spec Spec.Syntax

/-- A writer whose writes may fail but do not panic. -/
def CalmWriter (W : Type) [Write W] : Prop := ∀ s st (w : W), (Write.writeStr s st w).1 ≠ .panic

/-- A `core::fmt::Write` stream whose writes may fail but do not panic. -/
def CalmStream (T : Type) [FmtWrite T] : Prop := ∀ s (t : T), (FmtWrite.writeStr s t).1 ≠ .panic

/-- A `std::io::Write` stream that may fail but does not panic, and never claims to have written more bytes than
it was given. -/
def CalmIo (T : Type) [StdIoWrite T] : Prop :=
  (∀ buf (t : T), (StdIoWrite.write buf t).1 ≠ .panic) ∧ (∀ t : T, (StdIoWrite.flush t).1 ≠ .panic) ∧
  (∀ buf (t t' : T) n, StdIoWrite.write buf t = (.ok n, t') → n ≤ buf.length) ∧
  ∀ fuel buf (t : T), (StdIoWrite.writeAll fuel buf t).1 ≠ .panic

/-- A `stylish::io::Write` writer none of whose methods panics. -/
def CalmIoWriter (W : Type) [IoWrite W] : Prop :=
  (∀ buf st (w : W), (IoWrite.write buf st w).1 ≠ .panic) ∧
  (∀ buf st (w : W), (IoWrite.writeAll buf st w).1 ≠ .panic) ∧
  ∀ w : W, (IoWrite.flush w).1 ≠ .panic

/-- A `stylish::Display` implementation that does not panic, on any writer that does not, in any style and with
any options. -/
def PanicFree (d : Disp) : Prop :=
  ∀ (W : Type) [Write W], CalmWriter W → ∀ f : Formatter W, (d.run f).1 ≠ .panic

/-- A std formatting implementation that does not panic, however its writes end. -/
def StdPanicFree (p : StdProg) : Prop :=
  ∀ (W : Type) (write : Str → Act W FmtError Unit), (∀ s w, (write s w).1 ≠ .panic) →
    ∀ w, (stdRun write p w).1 ≠ .panic

/-- A value none of whose formatting implementations panics. -/
def ArgPanicFree (v : ArgVal) : Prop := (∀ tr o, StdPanicFree (v.std tr o)) ∧ PanicFree v.stylish

/-! ### Programs -/

attribute [local irreducible] stdOptsOf stdWrite

theorem resume_calm {S : Type} (r : Res FmtError Unit × S) (k : FmtResult → Act S FmtError Unit)
    (hr : r.1 ≠ .panic) (hk : ∀ x s, (k x s).1 ≠ .panic) : (resume r k).1 ≠ .panic := by
  rcases r with ⟨_ | _ | _ | _, s⟩
  · exact hk _ _
  · exact hk _ _
  · exact absurd rfl hr
  · simp [resume]

theorem writeStr_calm {W : Type} [Write W] (hW : CalmWriter W) (s : Str) (f : Formatter W) :
    (Formatter.writeStr s f).1 ≠ .panic := by
  have h := hW s f.style f.write
  simp only [Formatter.writeStr, Formatter.onWrite, Act.bind_apply]
  generalize Write.writeStr s f.style f.write = x at h ⊢
  rcases x with ⟨_ | _ | _ | _, w⟩ <;> simp at h ⊢

theorem try_calm {W : Type} [Write W] (hW : CalmWriter W) {d : Disp} (h : PanicFree d) (r : FmtResult)
    (f : Formatter W) : ((Disp.try_ d r).run f).1 ≠ .panic := by
  cases r
  · exact h W hW f
  · simp [Disp.try_, Disp.run, FmtResult.toRes]

theorem stdWrite_calm (kind : StdKind) (arg : StdFmt) (h : ∀ o, StdPanicFree (arg.f o)) :
    PanicFree (stdWrite kind arg) := by
  intro W _ hW f
  rw [run_stdWrite kind arg f.style f.format f.write]
  exact h _ W _ (fun s w => hW s _ w) _

theorem wrapArg_calm (tr : Format.FormatTrait) (v : ArgVal) (h : ArgPanicFree v) : PanicFree (wrapArg tr v) := by
  cases tr
  case Stylish => exact h.2
  case Debug => exact stdWrite_calm .Debug ⟨v.std .Debug⟩ (h.1 _)
  case Display => exact stdWrite_calm .Other ⟨v.std .Display⟩ (h.1 _)
  case Octal => exact stdWrite_calm .Other ⟨v.std .Octal⟩ (h.1 _)
  case LowerHex => exact stdWrite_calm .Other ⟨v.std .LowerHex⟩ (h.1 _)
  case UpperHex => exact stdWrite_calm .Other ⟨v.std .UpperHex⟩ (h.1 _)
  case Pointer => exact stdWrite_calm .Other ⟨v.std .Pointer⟩ (h.1 _)
  case Binary => exact stdWrite_calm .Other ⟨v.std .Binary⟩ (h.1 _)
  case LowerExp => exact stdWrite_calm .Other ⟨v.std .LowerExp⟩ (h.1 _)
  case UpperExp => exact stdWrite_calm .Other ⟨v.std .UpperExp⟩ (h.1 _)

theorem runStmts_calm (c : Captured) (hc : ∀ slot v, c.get slot = some v → ArgPanicFree v)
    (stmts : List Stmt) (hs : ∀ slot tr a d, Stmt.arg slot tr a d ∈ stmts → c.get slot ≠ none) :
    PanicFree (runStmts c stmts) := by
  induction stmts with
  | nil => intro W _ hW f; simp [runStmts, Disp.run, FmtResult.toRes]
  | cons s rest ih =>
    have ih := ih (fun slot tr a d h => hs slot tr a d (List.mem_cons_of_mem _ h))
    intro W _ hW f
    cases s with
    | lit s =>
      exact resume_calm _ _ (writeStr_calm hW s f) (fun r f => try_calm hW ih r f)
    | arg slot tr args style =>
      have hne := hs slot tr args style (List.mem_cons_self ..)
      unfold runStmts
      rcases hv : c.get slot with _ | v
      · exact absurd hv hne
      · simp only
        refine resume_calm _ _ ?_ (fun r f => try_calm hW ih r f)
        exact wrapArg_calm tr v (hc slot v hv) W hW _

/-! ### The expansion only refers to values it captured -/

/-- Is the slot filled when there are `n` positional, `m` named and `k` captured values? -/
def SlotIn (n m k : Nat) : Slot → Prop
  | .positional i => i < n
  | .named i => i < m
  | .implicit i => i < k

theorem slotIn_mono {n m k k' : Nat} {s : Slot} (h : SlotIn n m k s) (hk : k ≤ k') : SlotIn n m k' s := by
  cases s with
  | positional i => exact h
  | named i => exact h
  | implicit i => exact Nat.lt_of_lt_of_le h hk

theorem resolveRef_slot (n : Nat) (names : List Str) (st st' : GenState) (r : Option Format.FormatArgRef)
    (slot : Slot) (h : resolveRef n names st r = .ok (slot, st')) :
    SlotIn n names.length st'.implicit.length slot ∧ st.implicit.length ≤ st'.implicit.length := by
  unfold resolveRef at h
  split at h
  · split at h
    · obtain ⟨rfl, rfl⟩ := Prod.mk.inj (Except.ok.inj h)
      rename_i hlt
      exact ⟨hlt, Nat.le_refl _⟩
    · cases h
  · split at h
    · cases h
    · obtain ⟨rfl, rfl⟩ := Prod.mk.inj (Except.ok.inj h)
      rename_i hlt
      exact ⟨Nat.lt_of_not_le hlt, Nat.le_refl _⟩
  · split at h
    · obtain ⟨rfl, rfl⟩ := Prod.mk.inj (Except.ok.inj h)
      rename_i i hi
      exact ⟨namedIndex_lt _ _ _ hi, Nat.le_refl _⟩
    · split at h
      · obtain ⟨rfl, rfl⟩ := Prod.mk.inj (Except.ok.inj h)
        exact ⟨by simp [SlotIn], by simp⟩
      · cases h

theorem genPiece_slot (n : Nat) (names : List Str) (st st' : GenState) (p : Format.Piece) (s : Stmt)
    (h : genPiece n names st p = .ok (s, st')) :
    (∀ slot tr a d, s = .arg slot tr a d → SlotIn n names.length st'.implicit.length slot) ∧
      st.implicit.length ≤ st'.implicit.length := by
  cases p with
  | Lit l =>
    obtain ⟨rfl, rfl⟩ := Prod.mk.inj (Except.ok.inj h)
    exact ⟨fun _ _ _ _ e => (by cases e), Nat.le_refl _⟩
  | Arg a =>
    simp only [genPiece] at h
    rcases hr : resolveRef n names st a.arg with e | ⟨slot, st1⟩
    · rw [hr] at h; cases h
    · rw [hr] at h
      simp only [bind, Except.bind] at h
      split at h
      · cases h
      · split at h
        · cases h
        · split at h
          · cases h
          · obtain ⟨rfl, rfl⟩ := Prod.mk.inj (Except.ok.inj h)
            have := resolveRef_slot n names st st1 _ _ hr
            refine ⟨fun slot' tr' a' d' e => ?_, this.2⟩
            cases e
            exact this.1

theorem genPieces_slots (n : Nat) (names : List Str) (st st' : GenState) (ps : List Format.Piece)
    (ss : List Stmt) (h : genPieces n names st ps = .ok (ss, st')) :
    (∀ slot tr a d, Stmt.arg slot tr a d ∈ ss → SlotIn n names.length st'.implicit.length slot) ∧
      st.implicit.length ≤ st'.implicit.length := by
  induction ps generalizing st ss with
  | nil =>
    obtain ⟨rfl, rfl⟩ := Prod.mk.inj (Except.ok.inj h)
    exact ⟨fun _ _ _ _ e => (by cases e), Nat.le_refl _⟩
  | cons p ps ih =>
    unfold genPieces at h
    rcases hp : genPiece n names st p with e | ⟨s, st1⟩
    · rw [hp] at h; cases h
    · rw [hp] at h
      simp only [bind, Except.bind] at h
      rcases hq : genPieces n names st1 ps with e | ⟨ss1, st2⟩
      · rw [hq] at h; cases h
      · rw [hq] at h
        obtain ⟨rfl, rfl⟩ := Prod.mk.inj (Except.ok.inj h)
        obtain ⟨h1, h2⟩ := genPiece_slot _ _ _ _ _ _ hp
        obtain ⟨h3, h4⟩ := ih _ _ hq
        refine ⟨fun slot tr a d hm => ?_, Nat.le_trans h2 h4⟩
        rcases List.mem_cons.1 hm with e | hm
        · exact slotIn_mono (h1 slot tr a d e.symm) h4
        · exact h3 slot tr a d hm

theorem impl_calm {E : Env} (input : ArgsInput ArgVal) (scope : Str → ArgVal)
    (hp : ∀ e ∈ input.positionalArgs, ArgPanicFree e) (hn : ∀ e ∈ input.namedArgs, ArgPanicFree e.2)
    (hs : ∀ n, ArgPanicFree (scope n)) (x : Expansion ArgVal) (h : formatArgsImpl E input = .ok x) :
    PanicFree (runStmts ⟨x.positional, x.named, x.implicit.map scope⟩ x.statements) := by
  have hx : x.positional = input.positionalArgs ∧ x.named = input.namedArgs.map Prod.snd ∧
      ∀ slot tr a d, Stmt.arg slot tr a d ∈ x.statements →
        SlotIn input.positionalArgs.length (input.namedArgs.map Prod.fst).length x.implicit.length slot := by
    unfold formatArgsImpl at h
    simp only [bind, Except.bind] at h
    split at h
    · cases h
    · split at h
      · cases h
      · rename_i v hg
        split at h
        · cases h
        · obtain rfl := Except.ok.inj h
          exact ⟨rfl, rfl, (genPieces_slots _ _ _ _ _ _ hg).1⟩
  refine runStmts_calm _ (fun slot v hv => ?_) _ (fun slot tr a d hm hnone => ?_)
  · cases slot with
    | positional i =>
      have := List.mem_of_getElem? hv
      simp only [hx.1] at this
      exact hp _ this
    | named i =>
      have := List.mem_of_getElem? hv
      simp only [hx.2.1, List.mem_map] at this
      obtain ⟨e, he, rfl⟩ := this
      exact hn _ he
    | implicit i =>
      have := List.mem_of_getElem? hv
      simp only [List.mem_map] at this
      obtain ⟨n, -, rfl⟩ := this
      exact hs n
  · have hin := hx.2.2 slot tr a d hm
    cases slot with
    | positional i =>
      have := List.getElem?_eq_none_iff.1 hnone
      simp only [hx.1] at this
      exact absurd hin (Nat.not_lt.2 this)
    | named i =>
      have := List.getElem?_eq_none_iff.1 hnone
      simp only [hx.2.1, List.length_map] at this hin
      exact absurd hin (by simp only [SlotIn]; omega)
    | implicit i =>
      have := List.getElem?_eq_none_iff.1 hnone
      simp only [List.length_map] at this
      exact absurd hin (Nat.not_lt.2 this)

/-! ### C59: what is formatted -/

/-- C59: if the values' own implementations do not panic, then formatting the result of `format_args!` with them
does not panic, on any writer that does not. -/
theorem C59_format_args {E : Env} (format : Str) (args : List (MacroArg ArgVal)) (scope : Str → ArgVal)
    (hargs : ∀ a ∈ args, ArgPanicFree (argValue a)) (hscope : ∀ n, ArgPanicFree (scope n))
    (x : Arguments) (h : formatArgs E format args scope = .ok x) : PanicFree (Display.fmt x) := by
  unfold formatArgs ArgsInput.parse at h
  rcases hsp : splitArgs false [] [] args with e | ⟨pos, named⟩
  · rw [hsp] at h; cases h
  · rw [hsp] at h
    simp only [bind, Except.bind] at h
    rcases hx : formatArgsImpl E ⟨format, pos, named⟩ with e | y
    · rw [hx] at h; cases h
    · rw [hx] at h
      obtain rfl := Except.ok.inj h
      obtain ⟨h1, h2⟩ := splitArgs_mem _ _ _ _ _ hsp
      refine impl_calm _ scope (fun e he => ?_) (fun e he => ?_) hscope y hx
      · rcases h1 e he with h1 | ⟨a, ha, rfl⟩
        · cases h1
        · exact hargs a ha
      · rcases h2 e he with h2 | ⟨a, ha, h2⟩
        · cases h2
        · exact h2 ▸ hargs a ha

/-- C59: the same for the arguments made by `writeln!`. -/
theorem C59_format_args_nl {E : Env} (format : Str) (args : List (MacroArg ArgVal)) (scope : Str → ArgVal)
    (hargs : ∀ a ∈ args, ArgPanicFree (argValue a)) (hscope : ∀ n, ArgPanicFree (scope n))
    (x : Arguments) (h : formatArgsNl E format args scope = .ok x) : PanicFree (Display.fmt x) := by
  refine C59_format_args (E := E) (format ++ str "\n") args scope hargs hscope x ?_
  rw [← h]
  unfold formatArgs formatArgsNl ArgsInput.parse
  rcases splitArgs false [] [] args with e | ⟨pos, named⟩ <;> rfl

/-- C59: a std formatted value panics only if its std implementation does. -/
theorem C59_std (kind : StdKind) (arg : StdFmt) (h : ∀ o, StdPanicFree (arg.f o)) :
    PanicFree (stdWrite kind arg) := stdWrite_calm kind arg h

theorem writeChunks_calm {W : Type} [Write W] (hW : CalmWriter W) (log : List Chunk) (w : W) :
    (writeChunks log w).1 ≠ .panic := by
  induction log generalizing w with
  | nil => simp [writeChunks]
  | cons ch log ih =>
    rw [writeChunks_cons]
    have h := hW ch.1 ch.2 w
    rcases hr : Write.writeStr ch.1 ch.2 w with ⟨_ | _ | _ | _, w'⟩ <;> rw [hr] at h
    · exact ih w'
    · simp
    · exact absurd rfl h
    · simp

/-- C59: displaying an attributed `String`, whatever was written to it before, never panics: it never slices its
text out of bounds or inside a character. -/
theorem C59_string (log : List Chunk) : PanicFree (Display.fmt (writeChunks log StyString.new).2) := by
  intro W _ hW f
  obtain ⟨segs, h1, -, -⟩ := StyString.writeChunks_ofSegs log [] trivial
  have e : (writeChunks log StyString.new).2 = StyString.ofSegs segs := by
    have : StyString.new = StyString.ofSegs [] := rfl
    rw [this, h1]
  rw [e]
  have hd := StyString.display_ofSegs segs f.style f.format
  have h := Disp.run_propagates (Display.fmt (StyString.ofSegs segs)) (StyString.propagates_fmtFrom _ _)
    f.style f.format f.write
  rw [hd] at h
  have hc := writeChunks_calm hW segs f.write
  have e1 := congrArg Prod.fst h
  rw [show f = ⟨f.style, f.format, f.write⟩ from rfl]
  simp only at e1
  rw [e1]
  generalize writeChunks segs f.write = x at hc
  rcases x with ⟨_ | _ | _ | _, w⟩ <;> simp [afterChunks] at hc ⊢

/-! ### C59: the writers -/

/-- Actions that do not panic, whatever state they start in. -/
def CalmAct {S E A : Type} (x : Act S E A) : Prop := ∀ s, (x s).1 ≠ .panic

theorem calm_pure {S E A : Type} (a : A) : CalmAct (pure a : Act S E A) := fun s => by simp

theorem calm_bind {S E A B : Type} {x : Act S E A} {f : A → Act S E B} (hx : CalmAct x)
    (hf : ∀ a, CalmAct (f a)) : CalmAct (x >>= f) := by
  intro s
  have h := hx s
  rw [Act.bind_apply]
  generalize x s = y at h
  rcases y with ⟨_ | _ | _ | _, s'⟩
  · exact hf _ _
  · simp
  · exact absurd rfl h
  · simp

theorem plain_calm {T : Type} [FmtWrite T] (hT : CalmStream T) : CalmWriter (Plain T) := by
  intro s st w
  have h := hT s w.inner
  simpa [Write.writeStr, Plain.onInner] using h

namespace AnsiCalm
variable {T : Type} [FmtWrite T] (hT : CalmStream T)
include hT

theorem put (s : Str) : CalmAct (Ansi.put (T := T) s) := fun a => hT s a.inner

theorem putRest (l : List Str) : CalmAct (Ansi.putRest (T := T) l) := by
  induction l with
  | nil => exact calm_pure _
  | cons x l ih => exact calm_bind (put hT _) fun _ => calm_bind (put hT _) fun _ => ih

theorem switchStyle (c s : Style) : CalmAct (Ansi.switchStyle (T := T) c s) := by
  unfold Ansi.switchStyle
  split
  · exact put hT _
  · generalize Ansi.segments (s.diffFrom c) = l
    cases l with
    | nil => exact calm_pure _
    | cons x l =>
      exact calm_bind (put hT _) fun _ => calm_bind (put hT _) fun _ =>
        calm_bind (putRest hT _) fun _ => put hT _

theorem writeStr (s : Str) (st : Style) : CalmAct (Ansi.writeStr (T := T) s st) := by
  unfold Ansi.writeStr
  split
  · exact calm_pure _
  · refine calm_bind (fun a => by simp [Ansi.getCurrent]) fun c => ?_
    refine calm_bind (switchStyle hT _ _) fun _ => ?_
    refine calm_bind (fun a => by simp [Ansi.setCurrent]) fun _ => ?_
    exact calm_bind (put hT _) fun _ => calm_pure _

theorem finish : CalmAct (Ansi.finish (T := T)) := by
  unfold Ansi.finish
  refine calm_bind (fun a => by simp [Ansi.getCurrent]) fun c => ?_
  split
  · exact put hT _
  · exact calm_pure _

end AnsiCalm

namespace HtmlCalm
variable {T : Type} [FmtWrite T] (hT : CalmStream T)
include hT

theorem put (s : Str) : CalmAct (Html.put (T := T) s) := fun a => hT s a.inner

theorem putRest (l : List Str) : CalmAct (Html.putRest (T := T) l) := by
  induction l with
  | nil => exact calm_pure _
  | cons x l ih => exact calm_bind (put hT _) fun _ => calm_bind (put hT _) fun _ => ih

theorem closeSpan (c : Style) : CalmAct (Html.closeSpan (T := T) c) := by
  unfold Html.closeSpan
  split
  · exact put hT _
  · exact calm_pure _

theorem switchStyle (c s : Style) : CalmAct (Html.switchStyle (T := T) c s) := by
  unfold Html.switchStyle
  split
  · exact closeSpan hT _
  · split
    · generalize Html.segments (s.diffFrom Style.default) = l
      cases l with
      | nil => exact calm_pure _
      | cons x l =>
        exact calm_bind (closeSpan hT _) fun _ => calm_bind (put hT _) fun _ => calm_bind (put hT _) fun _ =>
          calm_bind (putRest hT _) fun _ => put hT _
    · exact calm_pure _

theorem putEscaped (run s : Str) : CalmAct (Html.putEscaped (T := T) run s) := by
  induction s generalizing run with
  | nil => exact put hT _
  | cons c cs ih =>
    unfold Html.putEscaped
    split
    · exact calm_bind (put hT _) fun _ => calm_bind (put hT _) fun _ => ih _
    · exact ih _

theorem writeStr (s : Str) (st : Style) : CalmAct (Html.writeStr (T := T) s st) := by
  unfold Html.writeStr
  split
  · exact calm_pure _
  · refine calm_bind (fun a => by simp [Html.getCurrent]) fun c => ?_
    refine calm_bind (switchStyle hT _ _) fun _ => ?_
    refine calm_bind (fun a => by simp [Html.setCurrent]) fun _ => ?_
    exact calm_bind (putEscaped hT _ _) fun _ => calm_pure _

theorem finish : CalmAct (Html.finish (T := T)) := by
  unfold Html.finish
  exact calm_bind (fun a => by simp [Html.getCurrent]) fun c => closeSpan hT _

end HtmlCalm

/-- C59: `Plain`, `Ansi` and `Html` over a stream that does not panic do not panic, neither when written to in any
state nor in `finish`; an attributed `String` never panics. -/
theorem C59_writers {T : Type} [FmtWrite T] (hT : CalmStream T) :
    CalmWriter (Plain T) ∧ CalmWriter (Ansi T) ∧ CalmWriter (Html T) ∧ CalmWriter StyString ∧
    (∀ a : Ansi T, (Ansi.finish a).1 ≠ .panic) ∧ (∀ h : Html T, (Html.finish h).1 ≠ .panic) :=
  ⟨plain_calm hT, AnsiCalm.writeStr hT, HtmlCalm.writeStr hT, fun _ _ _ => by simp [Write.writeStr, StyString.writeStr],
    AnsiCalm.finish hT, HtmlCalm.finish hT⟩

/-- C59: writing any arguments that do not panic to a writer that does not panic does not panic. -/
theorem C59_write_fmt (x : Arguments) (hx : PanicFree (Display.fmt x)) {W : Type} [Write W] (hW : CalmWriter W)
    (w : W) : (Write.writeFmt x w).1 ≠ .panic := by
  have h := hx W hW (Formatter.new w)
  rw [Write.writeFmt_eq]
  exact h

/-! ### C59: the io writers -/

/-- std's default `write_all` does not panic over a `write` that does not and that claims no more than it was given:
for a stream that keeps it, the last condition of `CalmIo` follows from the others. -/
theorem stdWriteAll_calm {T : Type} {write : Bytes → Act T IoError Nat} (h1 : ∀ buf t, (write buf t).1 ≠ .panic)
    (h2 : ∀ buf t t' n, write buf t = (.ok n, t') → n ≤ buf.length) (fuel : Nat) (buf : Bytes) :
    CalmAct (stdWriteAll write fuel buf) := by
  induction fuel generalizing buf with
  | zero => intro t; unfold stdWriteAll; split <;> simp
  | succ fuel ih =>
    intro t
    unfold stdWriteAll
    split
    · simp
    · have h1 := h1 buf t
      have h2 := h2 buf t
      generalize write buf t = x at h1 h2
      rcases x with ⟨n | e | _ | _, t'⟩
      · cases n with
        | zero => simp
        | succ n =>
          simp only [h2 t' (n + 1) rfl, if_true]
          exact ih _ _
      · simp only
        split
        · exact ih _ _
        · simp
      · exact absurd rfl h1
      · simp

theorem defaultWriteAll_calm {W : Type} (write : Bytes → Style → Act W IoError Nat)
    (h1 : ∀ buf st w, (write buf st w).1 ≠ .panic)
    (h2 : ∀ buf st w w' n, write buf st w = (.ok n, w') → n ≤ buf.length) (fuel : Nat) (buf : Bytes) (st : Style) :
    CalmAct (defaultWriteAll write fuel buf st) := by
  induction fuel generalizing buf with
  | zero => intro t; unfold defaultWriteAll; split <;> simp
  | succ fuel ih =>
    intro t
    unfold defaultWriteAll
    split
    · simp
    · have h1 := h1 buf st t
      have h2 := h2 buf st t
      generalize write buf st t = x at h1 h2
      rcases x with ⟨n | e | _ | _, t'⟩
      · cases n with
        | zero => simp
        | succ n =>
          simp only [h2 t' (n + 1) rfl, if_true]
          exact ih _ _
      · simp only
        split
        · exact ih _ _
        · simp
      · exact absurd rfl h1
      · simp

namespace IoAnsiCalm
variable {fuel : Nat} {T : Type} [StdIoWrite T] (hT : CalmIo T)
include hT

theorem put (s : Str) : CalmAct (IoAnsi.put (fuel := fuel) (T := T) s) :=
  fun a => hT.2.2.2 fuel _ a.inner

theorem putRest (l : List Str) : CalmAct (IoAnsi.putRest (fuel := fuel) (T := T) l) := by
  induction l with
  | nil => exact calm_pure _
  | cons x l ih => exact calm_bind (put hT _) fun _ => calm_bind (put hT _) fun _ => ih

theorem switchStyle (c s : Style) : CalmAct (IoAnsi.switchStyle (fuel := fuel) (T := T) c s) := by
  unfold IoAnsi.switchStyle
  split
  · exact put hT _
  · generalize IoAnsi.segments (s.diffFrom c) = l
    cases l with
    | nil => exact calm_pure _
    | cons x l =>
      exact calm_bind (put hT _) fun _ => calm_bind (put hT _) fun _ =>
        calm_bind (putRest hT _) fun _ => put hT _

theorem write (buf : Bytes) (st : Style) : CalmAct (IoAnsi.write (fuel := fuel) (T := T) buf st) := by
  unfold IoAnsi.write
  refine calm_bind (fun a => by simp [IoAnsi.getCurrent]) fun c => ?_
  refine calm_bind (switchStyle hT _ _) fun _ => ?_
  refine calm_bind (fun a => by simp [IoAnsi.setCurrent]) fun _ => ?_
  exact fun a => hT.1 buf a.inner

theorem write_le (buf : Bytes) (st : Style) (a a' : IoAnsi fuel T) (n : Nat)
    (h : IoAnsi.write buf st a = (.ok n, a')) : n ≤ buf.length := by
  simp only [IoAnsi.write, Act.bind_apply, IoAnsi.getCurrent] at h
  generalize IoAnsi.switchStyle a.current st a = x at h
  rcases x with ⟨_ | _ | _ | _, a1⟩ <;> simp [IoAnsi.setCurrent, IoAnsi.onInner] at h
  exact hT.2.2.1 buf a1.inner _ n (Prod.ext h.1 rfl)

theorem finish : CalmAct (IoAnsi.finish (fuel := fuel) (T := T)) := by
  unfold IoAnsi.finish
  refine calm_bind (fun a => by simp [IoAnsi.getCurrent]) fun c => ?_
  split
  · exact put hT _
  · exact calm_pure _

end IoAnsiCalm

/-- C59: `io::Plain` and `io::Ansi` over a stream that does not panic and does not claim to have written more than
it was given do not panic, in any method and in any state. -/
theorem C59_io_writers {fuel : Nat} {T : Type} [StdIoWrite T] (hT : CalmIo T) :
    CalmIoWriter (IoPlain fuel T) ∧ CalmIoWriter (IoAnsi fuel T) ∧
    (∀ a : IoAnsi fuel T, (IoAnsi.finish a).1 ≠ .panic) :=
  ⟨⟨fun buf _ w => hT.1 buf w.inner, fun buf _ w => hT.2.2.2 fuel buf w.inner,
      fun w => hT.2.1 w.inner⟩,
    ⟨IoAnsiCalm.write hT,
      defaultWriteAll_calm _ (IoAnsiCalm.write hT) (fun buf st w w' n => IoAnsiCalm.write_le hT buf st w w' n) fuel,
      fun w => hT.2.1 w.inner⟩,
    IoAnsiCalm.finish hT⟩

/-- C59: `io::Write::write_fmt` of arguments that do not panic, on an io writer that does not panic, does not
panic. -/
theorem C59_io_write_fmt (x : Arguments) (hx : PanicFree (Display.fmt x)) {W : Type} [IoWrite W]
    (hW : CalmIoWriter W) (w : W) : (IoWrite.writeFmt x w).1 ≠ .panic := by
  have htrap : CalmWriter (ErrorTrap W) := by
    intro s st t
    have h := hW.2.1 (utf8 s) st t.inner
    simp only [Write.writeStr]
    generalize IoWrite.writeAll (utf8 s) st t.inner = y at h
    rcases y with ⟨_ | _ | _ | _, w'⟩ <;> simp at h ⊢
  have h := C59_write_fmt x hx htrap (ErrorTrap.new w)
  unfold IoWrite.writeFmt
  generalize Write.writeFmt x (ErrorTrap.new w) = y at h
  rcases y with ⟨_ | _ | _ | _, w'⟩ <;> simp at h ⊢

/-! ### The hypotheses can be met, and are needed -/

theorem textArg_panicFree (s : Str) : ArgPanicFree (textArg s) := by
  refine ⟨fun _ _ W write hw w => ?_, fun W _ hW f => ?_⟩
  · have h := hw s w
    simp only [textArg, stdRun]
    generalize write s w = y at h
    rcases y with ⟨_ | _ | _ | _, w'⟩ <;> simp [ended] at h ⊢
  · refine resume_calm _ _ (writeStr_calm hW s f) fun r f => ?_
    cases r <;> simp [Disp.run, FmtResult.toRes]

theorem stdString_calm : CalmStream StdString := fun _ _ => by simp [FmtWrite.writeStr]

/-- Example: a format string with a captured variable, shown on a writer that fails. -/
example : ∃ x, formatArgs asciiEnv (str "a{}b{y:(bold)s}") [.positional (textArg (str "X"))]
      (fun n => textArg n) = .ok x ∧ ∀ w : FailingWriter, (Write.writeFmt x w).1 ≠ .panic := by
  rcases h : formatArgs asciiEnv (str "a{}b{y:(bold)s}") [.positional (textArg (str "X"))]
      (fun n => textArg n) with e | x
  · have : (formatArgs asciiEnv (str "a{}b{y:(bold)s}") [.positional (textArg (str "X"))]
      (fun n => textArg n)).toOption.isSome = true := by decide +kernel
    rw [h] at this
    cases this
  · refine ⟨x, rfl, fun w => C59_write_fmt x ?_ ?_ w⟩
    · refine C59_format_args _ _ _ (fun a ha => ?_) (fun n => textArg_panicFree _) x h
      rw [List.mem_singleton.1 ha]
      exact textArg_panicFree _
    · intro s st w
      simp only [Write.writeStr]
      split <;> simp

/-- A sink that claims to have written one byte more than it was given. -/
structure LyingSink where
  calls : Nat

instance : StdIoWrite LyingSink where
  write buf t := (.ok (buf.length + 1), ⟨t.calls + 1⟩)
  flush t := (.ok (), t)

/-- Over a stream that claims too much, `write_all` panics (the slice `&buf[n..]` does): the condition on the
stream is needed. -/
theorem C59_lying_stream : (IoWrite.writeAll [65] Style.default (⟨⟨0⟩, .default⟩ : IoAnsi 5 LyingSink)).1 = .panic := by
  decide

end Stylish.Props
