import Verif.Lemmas.IoWriters
import Verif.Props.Ansi
import Verif.Props.Html
/-
Properties of the io side, and of failures: C24 - C30.

Loops take a fuel argument; a run that did not finish within its fuel has the result `diverge`. The theorems
hold for every amount of fuel, and the termination theorems say that enough fuel exists.
-/

namespace Stylish.Props

open Spec

/-- A stylish `io::Write`r whose `write` obeys the documented contract: `Ok(n)` means the first `n` bytes
were delivered with the given style, an error means none were. `img` says how a byte in a style shows up in
what was delivered (e.g. the pair of both, or the byte alone for a writer that drops styles). -/
structure StyledIoSink (W α : Type) [IoWrite W] where
  img : Style → UInt8 → α
  delivered : W → List α
  contract : ∀ st, WriteContract (fun b => IoWrite.write (W := W) b st) (img st) delivered

/-- An example: a styled sink with a script, which keeps bytes with their styles. -/
structure StyledScript where
  script : List Answer
  got : List (UInt8 × Style)
  deriving DecidableEq, Repr

/-- Its `write`. -/
def StyledScript.write (buf : Bytes) (st : Style) : Act StyledScript IoError Nat := fun t =>
  match t.script with
  | [] => (.ok buf.length, ⟨[], t.got ++ buf.map (·, st)⟩)
  | .accept n :: rest => (.ok (min n buf.length), ⟨rest, t.got ++ (buf.take n).map (·, st)⟩)
  | .interrupt :: rest => (.err interrupted, ⟨rest, t.got⟩)
  | .fail c :: rest => (.err (osError c), ⟨rest, t.got⟩)
  | .panic :: rest => (.panic, ⟨rest, t.got⟩)

instance : IoWrite StyledScript where
  write := StyledScript.write
  flush t := (.ok (), t)
  writeAll := defaultWriteAll StyledScript.write 100

/-- It obeys the contract. -/
def styledScript : StyledIoSink StyledScript (UInt8 × Style) where
  img st b := (b, st)
  delivered := StyledScript.got
  contract st := by
    constructor
    · intro buf w w' n h
      simp only [IoWrite.write, StyledScript.write] at h
      split at h <;> simp only [Prod.mk.injEq, Res.ok.injEq, reduceCtorEq, false_and] at h
      · obtain ⟨rfl, rfl⟩ := h; simp
      · obtain ⟨rfl, rfl⟩ := h
        refine ⟨Nat.min_le_right _ _, ?_⟩
        simp [List.take_eq_take_min]
    · intro buf w w' e h
      simp only [IoWrite.write, StyledScript.write] at h
      split at h <;> simp only [Prod.mk.injEq, reduceCtorEq, false_and] at h
      · rw [← h.2]
      · rw [← h.2]
    · intro buf w w' r h hr
      simp only [IoWrite.write, StyledScript.write] at h
      split at h <;> simp only [Prod.mk.injEq] at h <;> obtain ⟨rfl, rfl⟩ := h <;> simp at hr
      exact ⟨[], by simp, by simp⟩

/-- `io::Plain` around a sink obeying the contract obeys it too (it drops the style). -/
def plainStyled {T : Type} [StdIoWrite T] (k : IoSink T) (fuel : Nat) :
    StyledIoSink (IoPlain fuel T) UInt8 where
  img _ b := b
  delivered p := k.delivered p.inner
  contract st := by
    have key : ∀ buf (w w' : IoPlain fuel T) r, IoWrite.write buf st w = (r, w') →
        StdIoWrite.write buf w.inner = (r, w'.inner) := by
      intro buf w w' r h
      simp only [IoWrite.write, IoPlain.onInner] at h
      rcases hw : StdIoWrite.write buf w.inner with ⟨x, t⟩
      rw [hw] at h
      obtain ⟨rfl, rfl⟩ := Prod.mk.inj h
      rfl
    constructor
    · intro buf w w' n h; exact k.contract.ok _ _ _ _ (key _ _ _ _ h)
    · intro buf w w' e h; exact k.contract.err _ _ _ _ (key _ _ _ _ h)
    · intro buf w w' r h; exact k.contract.other _ _ _ _ (key _ _ _ _ h)

/-! ## C24 -/

section
variable {W α : Type} [IoWrite W]

/-- C24: on a writer that only splits and interrupts, a `write_all` that finishes returns `Ok` and has
delivered exactly the buffer, in the given style. -/
theorem C24_write_all_delivers (k : StyledIoSink W α) (st : Style)
    (hn : NonFailing (fun b => IoWrite.write (W := W) b st)) (fuel : Nat) (buf : Bytes) (w w' : W)
    (r : Res IoError Unit) (h : defaultWriteAll IoWrite.write fuel buf st w = (r, w'))
    (hfin : r ≠ .diverge) : r = .ok () ∧ k.delivered w' = k.delivered w ++ buf.map (k.img st) := by
  have hr : r = .ok () := by
    have := loop_nonFailing st (k.contract st) hn fuel buf w
    rw [h] at this
    exact this.resolve_right hfin
  obtain ⟨p, rest, h1, h2, h3, -⟩ := loop_spec st (k.contract st) fuel buf w w' r h
  refine ⟨hr, ?_⟩
  rw [h2, h1, h3 hr, List.append_nil]

/-- C24: and it does finish if the writer is interrupted only finitely often in a row. -/
theorem C24_write_all_finishes (k : StyledIoSink W α) (st : Style)
    (hn : NonFailing (fun b => IoWrite.write (W := W) b st))
    (hf : FinitelyInterrupted (fun b => IoWrite.write (W := W) b st)) (buf : Bytes) (w : W) :
    ∃ enough w', ∀ fuel, enough ≤ fuel →
      defaultWriteAll IoWrite.write fuel buf st w = (.ok (), w') ∧
      k.delivered w' = k.delivered w ++ buf.map (k.img st) := by
  obtain ⟨f, h⟩ := loop_terminates st (k.contract st) hn hf buf w
  refine ⟨f, (defaultWriteAll IoWrite.write f buf st w).2, fun fuel hle => ?_⟩
  obtain ⟨n, rfl⟩ := Nat.exists_eq_add_of_le hle
  have e : defaultWriteAll IoWrite.write (f + n) buf st w = (.ok (), _) :=
    (loop_mono _ _ _ _ _ (by rw [h]; simp)).trans (Prod.ext h rfl)
  exact ⟨e, (C24_write_all_delivers k st hn _ _ _ _ _ e (by simp)).2⟩

omit [IoWrite W] in
/-- C24: an empty buffer never calls `write` (whatever `write` would do, even panic, it is not seen). -/
theorem C24_empty_never_writes (write : Bytes → Style → Act W IoError Nat) (fuel : Nat) (st : Style)
    (w : W) : defaultWriteAll write fuel [] st w = (.ok (), w) := loop_nil fuel st w

end

/-- C24 for `io::Plain`, whose `write_all` is the one of the stream it wraps. -/
theorem C24_io_plain {T : Type} [StdIoWrite T] (k : IoSink T)
    (hn : ReliableStream T) (fuel : Nat) (buf : Bytes) (st : Style)
    (w w' : IoPlain fuel T) (r : Res IoError Unit) (h : IoWrite.writeAll buf st w = (r, w'))
    (hfin : r ≠ .diverge) : r = .ok () ∧ k.delivered w'.inner = k.delivered w.inner ++ buf := by
  simp only [IoWrite.writeAll, IoPlain.onInner] at h
  have h1 := all_emits k fuel buf w.inner
  have h2 := hn.writeAll fuel buf w.inner
  rcases hs : StdIoWrite.writeAll fuel buf w.inner with ⟨x, t⟩
  rw [hs] at h h1 h2
  obtain ⟨rfl, rfl⟩ := Prod.mk.inj h
  have hr : x = .ok () := h2.resolve_right hfin
  subst hr
  exact ⟨rfl, h1.1⟩

/-- C24 for `io::Ansi`: the escape sequence for the style change (if any) once, then the buffer. -/
theorem C24_io_ansi {T : Type} [StdIoWrite T] (k : IoSink T)
    (hn : ReliableStream T) (fuel : Nat) (buf : Bytes) (hb : buf ≠ []) (st : Style)
    (w w' : IoAnsi fuel T) (r : Res IoError Unit) (h : IoWrite.writeAll buf st w = (r, w'))
    (hfin : r ≠ .diverge) : r = .ok () ∧ w'.current = st ∧ ∃ esc, SgrBetween w.current st esc ∧
      k.delivered w'.inner = k.delivered w.inner ++ (utf8 esc ++ buf) := by
  have h' : defaultWriteAll IoAnsi.write fuel buf st w = (r, w') := h
  have h1 := IoAnsi.writeAll_emits k fuel buf st w
  have h2 := IoAnsi.writeAll_okOrHangs k hn fuel buf st w
  rw [h'] at h1 h2
  have hr : r = .ok () := by
    rcases h2 with ⟨u, h2⟩ | h2
    · exact h2
    · exact absurd h2 hfin
  subst hr
  have hne : buf.isEmpty = false := by simpa using hb
  simp only [hne, Bool.false_eq_true, if_false] at h1
  exact ⟨rfl, h1.2, _, sgrBetween_switch _ _, h1.1⟩

example : defaultWriteAll IoWrite.write 9 (utf8 ['h', 'é', '!']) Style.default
      (⟨[.interrupt, .accept 2, .interrupt, .interrupt, .accept 1], []⟩ : StyledScript) =
    (.ok (), ⟨[], (utf8 ['h', 'é', '!']).map (·, Style.default)⟩) := by decide

example : IoWrite.writeAll (utf8 ['h', 'é', '!']) ⟨.Red, .Default, .Normal⟩
      (⟨⟨[none, some 1, none, some 0, none], []⟩, Style.default⟩ : IoAnsi 9 ScheduleSink) =
    (.ok (), ⟨⟨[], utf8 (str "\x1b[31mhé!")⟩, ⟨.Red, .Default, .Normal⟩⟩) := by decide

/-! ## C25 -/

/-- C25: in every run of `write_all`, on any writer obeying the contract: what was delivered is a prefix of
the buffer, in order and once; `Ok` means all of it; an error means not all of it, is never `Interrupted`,
and either is the error of the last call of `write` (which was offered exactly the undelivered rest) or is
`WriteZero` and that call returned `Ok(0)`; it panics only if `write` does. -/
theorem C25_write_all_prefix {W α : Type} [IoWrite W] (k : StyledIoSink W α) (st : Style) (fuel : Nat)
    (buf : Bytes) (w w' : W) (r : Res IoError Unit)
    (h : defaultWriteAll IoWrite.write fuel buf st w = (r, w')) :
    ∃ done rest, buf = done ++ rest ∧ k.delivered w' = k.delivered w ++ done.map (k.img st) ∧
      (r = .ok () → rest = []) ∧
      (∀ e, r = .err e → rest ≠ [] ∧ e.kind ≠ .Interrupted ∧
        ∃ v, k.delivered v = k.delivered w ++ done.map (k.img st) ∧
          (IoWrite.write rest st v = (.err e, w') ∨
           (IoWrite.write rest st v = (.ok 0, w') ∧ e.kind = .WriteZero))) ∧
      (r = .panic → ∃ b v, IoWrite.write b st v = (.panic, w')) := by
  obtain ⟨p, rest, h1, h2, h3, h4, h5⟩ := loop_spec st (k.contract st) fuel buf w w' r h
  refine ⟨p, rest, h1, h2, h3, ?_, h5⟩
  intro e he
  obtain ⟨k1, v, k2, ⟨k3, k4⟩ | ⟨k3, rfl⟩⟩ := h4 e he
  · exact ⟨k1, k4, v, k2, Or.inl k3⟩
  · exact ⟨k1, by simp, v, k2, Or.inr ⟨k3, rfl⟩⟩

/-- C25 for `io::Plain`, whose `write_all` is the one of the stream it wraps (which may be its own, not std's
loop): what was delivered is a prefix of the buffer, in order and once; `Ok` means all of it; an error is never
`Interrupted`, and on a buffer without line breaks it means not all of it. -/
theorem C25_io_plain {T : Type} [StdIoWrite T] (k : IoSink T) (fuel : Nat) (buf : Bytes) (st : Style)
    (w w' : IoPlain fuel T) (r : Res IoError Unit) (h : IoWrite.writeAll buf st w = (r, w')) :
    ∃ done rest, buf = done ++ rest ∧ k.delivered w'.inner = k.delivered w.inner ++ done ∧
      (r = .ok () → rest = []) ∧
      (∀ e, r = .err e → (buf ≠ [] → 10 ∉ buf → rest ≠ []) ∧ e.kind ≠ .Interrupted) := by
  simp only [IoWrite.writeAll, IoPlain.onInner] at h
  rcases hs : StdIoWrite.writeAll fuel buf w.inner with ⟨x, t⟩
  rw [hs] at h
  obtain ⟨rfl, rfl⟩ := Prod.mk.inj h
  cases x with
  | ok u => exact ⟨buf, [], by simp, k.all.ok _ _ _ _ hs, by simp, by simp⟩
  | err e =>
    obtain ⟨h0, p, ⟨rest, rfl⟩, h2, h3⟩ := k.all.err _ _ _ _ _ hs
    refine ⟨p, rest, rfl, h3, by simp, ?_⟩
    rintro e' ⟨⟩
    exact ⟨fun hb hl hr => h2 hb hl (by simp [hr]), h0⟩
  | panic =>
    obtain ⟨p, ⟨rest, rfl⟩, h3⟩ := k.all.other _ _ _ _ _ hs (Or.inl rfl)
    exact ⟨p, rest, rfl, h3, by simp, by simp⟩
  | diverge =>
    obtain ⟨p, ⟨rest, rfl⟩, h3⟩ := k.all.other _ _ _ _ _ hs (Or.inr rfl)
    exact ⟨p, rest, rfl, h3, by simp, by simp⟩

/-- C25: over a stream that keeps std's default `write_all`, `io::Plain`'s `write_all` is the loop of
`C25_write_all_prefix`. -/
theorem C25_io_plain_default {T : Type} [StdIoWrite T]
    (hd : StdIoWrite.writeAll (T := T) = stdWriteAll StdIoWrite.write) (fuel : Nat) (buf : Bytes) (st : Style)
    (w : IoPlain fuel T) :
    IoWrite.writeAll buf st w = defaultWriteAll IoWrite.write fuel buf st w := by
  show IoPlain.onInner (StdIoWrite.writeAll fuel buf) w = _
  rw [hd]
  have key : ∀ n buf (w : IoPlain fuel T), IoPlain.onInner (stdWriteAll StdIoWrite.write n buf) w =
      defaultWriteAll IoWrite.write n buf st w := by
    intro n
    induction n with
    | zero =>
      intro buf w
      by_cases hb : buf.isEmpty = true <;> simp [IoPlain.onInner, stdWriteAll, defaultWriteAll, hb]
    | succ n ih =>
      intro buf w
      have e : IoPlain.onInner (stdWriteAll StdIoWrite.write (n + 1) buf) w =
        ((stdWriteAll StdIoWrite.write (n + 1) buf w.inner).1,
          (⟨(stdWriteAll StdIoWrite.write (n + 1) buf w.inner).2⟩ : IoPlain fuel T)) := rfl
      rw [e]
      unfold stdWriteAll defaultWriteAll
      by_cases hb : buf.isEmpty = true
      · simp only [hb, if_true]
      · rw [if_neg hb, if_neg hb]
        simp only [IoWrite.write, IoPlain.onInner]
        rcases h : StdIoWrite.write buf w.inner with ⟨r, t⟩
        rcases r with (_ | m) | e | _ | _
        · rfl
        · simp only
          split
          · exact ih _ ⟨t⟩
          · rfl
        · simp only
          split
          · exact ih _ ⟨t⟩
          · rfl
        · rfl
        · rfl
  exact key fuel buf w

example : defaultWriteAll IoWrite.write 9 [1, 2, 3, 4] Style.default
      (⟨[.accept 2, .interrupt, .fail 5, .accept 1], []⟩ : StyledScript) =
    (.err (osError 5), ⟨[.accept 1], [(1, Style.default), (2, Style.default)]⟩) ∧
    (defaultWriteAll IoWrite.write 9 [1, 2] Style.default (⟨[.accept 1, .accept 0], []⟩ : StyledScript)).1 =
    .err ⟨.WriteZero, "failed to write whole buffer"⟩ := by decide

/-! ## C26 -/

section
variable {T : Type} [StdIoWrite T]

theorem denote_of_ansiFormat (args : Arguments) (s : Str) (h : ansiFormat args = .ok s) :
    (denote args).2 = .ok () ∧ s = ansiRender (flatten (denote args).1) := by
  rw [ansiFormat_eq] at h
  rcases hd : (denote args).2 with u | u | _ | _ <;> rw [hd] at h <;> simp [formatOutcome] at h
  exact ⟨rfl, h.symm⟩

theorem trap_writeFmt_eq (fuel : Nat) (args : Arguments) (k : IoSink T)
    (hn : ReliableStream T) (t : T) :
    IoWrite.writeFmt args (IoAnsi.new t : IoAnsi fuel T) =
      match afterChunks (writeChunks (denote args).1 (ErrorTrap.new (IoAnsi.new t : IoAnsi fuel T)))
        (denote args).2 with
      | (.ok (), trap) => (.ok (), trap.inner)
      | (.err (), trap) => (.err trap.takeError, trap.inner)
      | (.panic, trap) => (.panic, trap.inner)
      | (.diverge, trap) => (.diverge, trap.inner) := by
  unfold IoWrite.writeFmt
  rw [Write.writeFmt_noErr (IoAnsi.trap_noErr k hn)]
  rcases afterChunks (writeChunks (denote args).1 (ErrorTrap.new (IoAnsi.new t : IoAnsi fuel T)))
        (denote args).2 with ⟨r, trap⟩
  cases r <;> rfl

/-- C26: formatting into `io::Ansi` around a stream that splits and interrupts arbitrarily, and finishing,
delivers exactly the UTF-8 bytes of the string `ansi::format` returns for the same arguments: if both calls
come to an end, both are `Ok`. -/
theorem C26_same_bytes (k : IoSink T) (hn : ReliableStream T) (args : Arguments)
    (s : Str) (hs : ansiFormat args = .ok s) (t : T) (fuel : Nat) (r r' : Res IoError Unit)
    (a b : IoAnsi fuel T) (h : IoWrite.writeFmt args (IoAnsi.new t) = (r, a)) (hr : r ≠ .diverge)
    (h' : IoAnsi.finish a = (r', b)) (hr' : r' ≠ .diverge) :
    r = .ok () ∧ r' = .ok () ∧ k.delivered b.inner = k.delivered t ++ utf8 s := by
  obtain ⟨hd, rfl⟩ := denote_of_ansiFormat args s hs
  rw [trap_writeFmt_eq fuel args k hn t, hd] at h
  have hne := (IoAnsi.trap_noErr (fuel := fuel) k hn).writeChunks (denote args).1
    (ErrorTrap.new (IoAnsi.new t : IoAnsi fuel T))
  have hemit := (IoAnsi.renders (fuel := fuel) k).writeChunks (denote args).1
    (ErrorTrap.new (IoAnsi.new t : IoAnsi fuel T))
  rcases hc : writeChunks (denote args).1 (ErrorTrap.new (IoAnsi.new t : IoAnsi fuel T)) with ⟨rc, w⟩
  rw [hc] at h hne hemit
  have hrc : rc = .ok () := by
    cases rc with
    | ok u => rfl
    | err e => exact absurd rfl hne
    | panic =>
      exfalso
      have : ∀ (chs : List Chunk) (w : ErrorTrap (IoAnsi fuel T)), (writeChunks chs w).1 ≠ .panic := by
        intro chs
        induction chs with
        | nil => intro w; simp
        | cons ch chs ih =>
          intro w
          rw [writeChunks_cons]
          obtain ⟨o, e⟩ := IoAnsi.trap_writeStr ch.1 ch.2 w
          rcases IoAnsi.writeAll_okOrHangs k hn fuel (utf8 ch.1) ch.2 w.inner with ⟨u, e2⟩ | e2
          · rw [e, e2]; exact ih _
          · rw [e, e2]; simp
      exact this _ _ (by rw [hc])
    | diverge => exact absurd (Prod.mk.inj h).1.symm hr
  subst hrc
  obtain ⟨rfl, rfl⟩ := Prod.mk.inj h
  have hfo : r' = .ok () := by
    have : OkOrHangs (IoAnsi.finish (fuel := fuel) (T := T)) := by
      refine OkOrHangs.bind (fun a => Or.inl ⟨_, rfl⟩) fun c => ?_
      split
      · exact IoAnsi.put_okOrHangs k hn _
      · exact OkOrHangs.pure _
    rcases this w.inner with ⟨u, e⟩ | e
    · rw [h'] at e; exact e
    · rw [h'] at e; exact absurd e hr'
  subst hfo
  have hf := IoAnsi.finish_emits k w.inner
  rw [h'] at hf
  have e1 : k.delivered b.inner = k.delivered w.inner.inner ++ _ := hf.1
  have e2 : k.delivered w.inner.inner = k.delivered t ++ _ := hemit.1
  have e3 : w.inner.current = _ := hemit.2
  refine ⟨rfl, rfl, ?_⟩
  rw [e1, e2, e3, render_bytes, List.append_assoc]
  simp only [ansiRender, utf8_append, ansiSwitchBytes]
  rfl

/-- C26: and both do come to an end if the stream is interrupted only finitely often in a row. -/
theorem C26_finishes (k : IoSink T) (hn : ReliableStream T)
    (hf : KeepsGoing T) (args : Arguments)
    (s : Str) (hs : ansiFormat args = .ok s) (t : T) :
    ∃ enough, ∀ fuel, enough ≤ fuel → ∃ a b : IoAnsi fuel T,
      IoWrite.writeFmt args (IoAnsi.new t) = (.ok (), a) ∧ IoAnsi.finish a = (.ok (), b) ∧
      k.delivered b.inner = k.delivered t ++ utf8 s := by
  obtain ⟨hd, -⟩ := denote_of_ansiFormat args s hs
  obtain ⟨f1, t1, c1, h1⟩ := IoAnsi.chunks_settle k hn hf (denote args).1 t Style.default
  obtain ⟨f2, u, t2, c2, h2⟩ := IoAnsi.finish_settles k hn hf t1 c1
  refine ⟨max f1 f2, fun fuel hle => ?_⟩
  obtain ⟨o, e⟩ := h1 fuel (by omega) none
  have e' : writeChunks (denote args).1 (ErrorTrap.new (IoAnsi.new t : IoAnsi fuel T)) =
    (.ok (), ⟨⟨t1, c1⟩, o⟩) := e
  have w : IoWrite.writeFmt args (IoAnsi.new t : IoAnsi fuel T) = (.ok (), ⟨t1, c1⟩) := by
    rw [trap_writeFmt_eq fuel args k hn t, hd, e']
    rfl
  have g := h2 fuel (by omega)
  exact ⟨_, _, w, g, (C26_same_bytes k hn args s hs t fuel _ _ _ _ w (by simp) g (by simp)).2.2⟩

/-- C26: what `io::Ansi` has delivered before `finish`, when `write_fmt` returns `Ok` on any stream obeying
the contract, are the bytes of what `Ansi` has delivered before `finish`; it is in the same style. -/
theorem C26_before_finish (k : IoSink T) (args : Arguments) (hp : Propagates args.f)
    (t : T) (fuel : Nat) (a : IoAnsi fuel T) (h : IoWrite.writeFmt args (IoAnsi.new t) = (.ok (), a)) :
    ∃ b : Ansi StdString, Ansi.writeFmt args (Ansi.new StdString.new) = (.ok (), b) ∧
      b.current = a.current ∧ k.delivered a.inner = k.delivered t ++ utf8 b.inner.chars := by
  unfold IoWrite.writeFmt at h
  rw [Write.writeFmt_propagates args hp] at h
  have hemit := (IoAnsi.renders (fuel := fuel) k).writeChunks (denote args).1
    (ErrorTrap.new (IoAnsi.new t : IoAnsi fuel T))
  have hacc : Accepting (Ansi StdString) := Ansi.accepting stringSink_accepting
  have hs := (Ansi.renders stringSink).writeChunks_accepting hacc (denote args).1
    (Ansi.new StdString.new)
  refine ⟨(writeChunks (denote args).1 (Ansi.new StdString.new)).2, ?_, ?_, ?_⟩
  · unfold Ansi.writeFmt
    rw [Write.writeFmt_accepting hacc]
    rcases hc : writeChunks (denote args).1 (ErrorTrap.new (IoAnsi.new t : IoAnsi fuel T)) with ⟨rc, w⟩
    rw [hc] at h
    rcases hd : (denote args).2 with u | u | _ | _ <;> cases rc <;>
      simp [hd, afterChunks] at h
    rfl
  all_goals
    rcases hc : writeChunks (denote args).1 (ErrorTrap.new (IoAnsi.new t : IoAnsi fuel T)) with ⟨rc, w⟩
    rw [hc] at h hemit
    rcases hd : (denote args).2 with u | u | _ | _ <;> cases rc <;>
      simp [hd, afterChunks] at h
    subst h
    have e2 : k.delivered w.inner.inner = k.delivered t ++ _ := hemit.1
    have e3 : w.inner.current = _ := hemit.2
    first
    | (rw [hs.2, e3]; rfl)
    | (rw [e2, render_bytes]
       have : StdString.chars (writeChunks (denote args).1 (Ansi.new StdString.new)).2.inner = _ := hs.1
       rw [this]
       rfl)

/-! ## C27 -/

theorem denote_of_plainFormat (args : Arguments) (s : Str) (h : plainFormat args = .ok s) :
    (denote args).2 = .ok () ∧ s = text (flatten (denote args).1) := by
  rw [plainFormat_eq] at h
  rcases hd : (denote args).2 with u | u | _ | _ <;> rw [hd] at h <;> simp [formatOutcome] at h
  exact ⟨rfl, h.symm⟩

/-- C27: formatting into `io::Plain` around a stream that splits and interrupts arbitrarily delivers exactly
the UTF-8 bytes of the string `plain::format` returns: if it comes to an end, it is `Ok`. -/
theorem C27_same_bytes (k : IoSink T) (hn : ReliableStream T) (args : Arguments)
    (s : Str) (hs : plainFormat args = .ok s) (t : T) (fuel : Nat) (r : Res IoError Unit)
    (a : IoPlain fuel T) (h : IoWrite.writeFmt args (IoPlain.new t) = (r, a)) (hr : r ≠ .diverge) :
    r = .ok () ∧ k.delivered (IoPlain.intoInner a) = k.delivered t ++ utf8 s := by
  obtain ⟨hd, rfl⟩ := denote_of_plainFormat args s hs
  unfold IoWrite.writeFmt at h
  rw [Write.writeFmt_noErr (IoPlain.trap_noErr k hn), hd] at h
  have hne := (IoPlain.trap_noErr (fuel := fuel) k hn).writeChunks (denote args).1
    (ErrorTrap.new (IoPlain.new t : IoPlain fuel T))
  have hemit := IoPlain.chunks_emits k (denote args).1 (ErrorTrap.new (IoPlain.new t : IoPlain fuel T))
  rcases hc : writeChunks (denote args).1 (ErrorTrap.new (IoPlain.new t : IoPlain fuel T)) with ⟨rc, w⟩
  rw [hc] at h hne hemit
  have hrc : rc = .ok () := by
    cases rc with
    | ok u => rfl
    | err e => exact absurd rfl hne
    | panic =>
      exfalso
      have : ∀ (chs : List Chunk) (w : ErrorTrap (IoPlain fuel T)), (writeChunks chs w).1 ≠ .panic := by
        intro chs
        induction chs with
        | nil => intro w; simp
        | cons ch chs ih =>
          intro w
          rw [writeChunks_cons]
          obtain ⟨o, e⟩ := IoPlain.trap_writeStr ch.1 ch.2 w
          rcases hn.writeAll fuel (utf8 ch.1) w.inner.inner with e2 | e2
          · rw [e, e2]; exact ih _
          · rw [e, e2]; simp
      exact this _ _ (by rw [hc])
    | diverge => exact absurd (Prod.mk.inj h).1.symm hr
  subst hrc
  obtain ⟨rfl, rfl⟩ := Prod.mk.inj h
  exact ⟨rfl, hemit.1⟩

/-- C27: and it does come to an end if the stream is interrupted only finitely often in a row. -/
theorem C27_finishes (k : IoSink T) (hn : ReliableStream T)
    (hf : KeepsGoing T) (args : Arguments)
    (s : Str) (hs : plainFormat args = .ok s) (t : T) :
    ∃ enough, ∀ fuel, enough ≤ fuel → ∃ a : IoPlain fuel T,
      IoWrite.writeFmt args (IoPlain.new t) = (.ok (), a) ∧
      k.delivered (IoPlain.intoInner a) = k.delivered t ++ utf8 s := by
  obtain ⟨hd, -⟩ := denote_of_plainFormat args s hs
  obtain ⟨f1, t1, h1⟩ := IoPlain.chunks_settle k hn hf (denote args).1 t
  refine ⟨f1, fun fuel hle => ?_⟩
  obtain ⟨o, e⟩ := h1 fuel (by omega) none
  have e' : writeChunks (denote args).1 (ErrorTrap.new (IoPlain.new t : IoPlain fuel T)) =
    (.ok (), ⟨⟨t1⟩, o⟩) := e
  have w : IoWrite.writeFmt args (IoPlain.new t : IoPlain fuel T) = (.ok (), ⟨t1⟩) := by
    unfold IoWrite.writeFmt
    rw [Write.writeFmt_noErr (IoPlain.trap_noErr k hn), hd, e']
    rfl
  exact ⟨_, w, (C27_same_bytes k hn args s hs t fuel _ _ w (by simp)).2⟩

end

/-- A schedule that splits and interrupts inside an escape sequence. -/
example : ansiFormat ⟨sampleProg⟩ = .ok (str "a\x1b[31;1mb\x1b[0mc") ∧
    ReliableStream ScheduleSink ∧
    KeepsGoing ScheduleSink ∧
    IoWrite.writeFmt ⟨sampleProg⟩ (IoAnsi.new ⟨[some 3, some 0, none, none, some 0, none, some 5], []⟩ :
      IoAnsi 9 ScheduleSink) =
      (.ok (), ⟨⟨[], utf8 (str "a\x1b[31;1mb\x1b[0mc")⟩, Style.default⟩) :=
  ⟨rfl, scheduleSink_reliable, scheduleSink_keepsGoing, by decide +kernel⟩

/-! ## C28 -/

/-- An observer around an io writer: passes every text on and keeps all I/O errors that happened. -/
structure Observer (W : Type) where
  inner : W
  errors : List IoError

instance {W : Type} [IoWrite W] : Write (Observer W) := ⟨fun s style o =>
  match IoWrite.writeAll (utf8 s) style o.inner with
  | (.ok (), w) => (.ok (), ⟨w, o.errors⟩)
  | (.err e, w) => (.err (), ⟨w, o.errors ++ [e]⟩)
  | (.panic, w) => (.panic, ⟨w, o.errors⟩)
  | (.diverge, w) => (.diverge, ⟨w, o.errors⟩)⟩

/-- C28: `write_fmt` runs the program on the writer. It is `Ok` exactly when the program returns `Ok`; when
the program returns an error, the result is the most recent I/O error there was, and if there was none, an
error of kind `Other`. -/
theorem C28_write_fmt_error {W : Type} [IoWrite W] (args : Arguments) (w : W) :
    ∃ (out : Res FmtError Unit) (o : Observer W),
      args.f.run ⟨Style.default, FormatterArgs.default, (⟨w, []⟩ : Observer W)⟩ =
        (out, ⟨Style.default, FormatterArgs.default, o⟩) ∧
      (IoWrite.writeFmt args w).2 = o.inner ∧
      ((IoWrite.writeFmt args w).1 = .ok () ↔ out = .ok ()) ∧
      (out = .err () → ∃ e, (IoWrite.writeFmt args w).1 = .err e ∧
        (∀ hne : o.errors ≠ [], e = o.errors.getLast hne) ∧ (o.errors = [] → e.kind = .Other)) ∧
      ((IoWrite.writeFmt args w).1 = .panic ↔ out = .panic) := by
  have sim := Disp.run_sim (W := ErrorTrap W) (V := Observer W)
    (fun t o => t.inner = o.inner ∧ t.error = o.errors.getLast?)
    (by
      rintro s style ⟨ti, te⟩ ⟨oi, oe⟩ ⟨h1, h2⟩
      simp only at h1 h2
      subst h1
      simp only [Write.writeStr]
      rcases IoWrite.writeAll (utf8 s) style ti with ⟨r, w'⟩
      cases r <;> simp [h2])
    args.f Style.default FormatterArgs.default (ErrorTrap.new w) ⟨w, []⟩ ⟨rfl, rfl⟩
  have hrun := Disp.run_eta args.f ⟨Style.default, FormatterArgs.default, (⟨w, []⟩ : Observer W)⟩
  rcases hr : args.f.run ⟨Style.default, FormatterArgs.default, (⟨w, []⟩ : Observer W)⟩ with ⟨out, fo⟩
  rw [hr] at sim hrun
  refine ⟨out, fo.write, hrun, ?_⟩
  unfold IoWrite.writeFmt
  rw [Write.writeFmt_eq]
  rcases ht : args.f.run ⟨Style.default, FormatterArgs.default, ErrorTrap.new w⟩ with ⟨out', ft⟩
  rw [ht] at sim
  obtain ⟨s1, s2, s3⟩ := sim
  simp only at s1 s2 s3
  subst s1
  cases out' with
  | ok u => exact ⟨s2, by simp, by simp, by simp⟩
  | err e =>
    refine ⟨s2, by simp, fun _ => ⟨_, rfl, ?_, ?_⟩, by simp⟩
    · intro hne
      have : ft.write.error = some (fo.write.errors.getLast hne) := by
        rw [s3, List.getLast?_eq_some_getLast hne]
      simp [ErrorTrap.takeError, this]
    · intro he
      have : ft.write.error = none := by rw [s3, he]; rfl
      simp [ErrorTrap.takeError, this]
  | panic => exact ⟨s2, by simp, by simp, by simp⟩
  | diverge => exact ⟨s2, by simp, by simp, by simp⟩

/-- Make the given writes with `write_all`, stopping at the first one that does not succeed. -/
def writeAllChunks {W : Type} [IoWrite W] : List Chunk → Act W IoError Unit
  | [] => pure ()
  | ch :: rest => do
    IoWrite.writeAll (utf8 ch.1) ch.2
    writeAllChunks rest

/-- C28 for programs that propagate errors: `write_fmt` makes the program's writes one after the other and
stops at the first I/O error, which it returns; the writer is touched no more. -/
theorem C28_first_error {W : Type} [IoWrite W] (args : Arguments) (hp : Propagates args.f)
    (log : List Chunk) (out : Res FmtError Unit)
    (hargs : writes args.f Style.default FormatterArgs.default = (log, out)) (w : W) :
    (IoWrite.writeFmt args w).2 = (writeAllChunks log w).2 ∧
    (∀ e, (writeAllChunks log w).1 = .err e → (IoWrite.writeFmt args w).1 = .err e) ∧
    ((writeAllChunks log w).1 = .ok () → out = .ok () → (IoWrite.writeFmt args w).1 = .ok ()) ∧
    ((writeAllChunks log w).1 = .ok () → out = .err () →
      (IoWrite.writeFmt args w).1 = .err ⟨.Other, "formatter error"⟩) := by
  have hd : denote args = (log, out) := hargs
  have key : ∀ (chs : List Chunk) (w : W), ∃ o, writeChunks chs (⟨w, none⟩ : ErrorTrap W) =
      (match (writeAllChunks chs w).1 with
        | .ok () => .ok ()
        | .err _ => .err ()
        | .panic => .panic
        | .diverge => .diverge, ⟨(writeAllChunks chs w).2, o⟩) ∧
      ((writeAllChunks chs w).1 = .ok () → o = none) ∧
      (∀ e, (writeAllChunks chs w).1 = .err e → o = some e) := by
    intro chs
    induction chs with
    | nil => intro w; exact ⟨none, rfl, fun _ => rfl, fun e h => by simp [writeAllChunks] at h⟩
    | cons ch chs ih =>
      intro w
      rw [writeChunks_cons, writeAllChunks, Act.bind_apply]
      simp only [Write.writeStr]
      rcases hw : IoWrite.writeAll (utf8 ch.1) ch.2 w with ⟨r, w'⟩
      cases r with
      | ok u => exact ih w'
      | err e => exact ⟨some e, rfl, by simp, by simp⟩
      | panic => exact ⟨none, rfl, by simp, by simp⟩
      | diverge => exact ⟨none, rfl, by simp, by simp⟩
  obtain ⟨o, h1, h2, h3⟩ := key log w
  unfold IoWrite.writeFmt
  rw [Write.writeFmt_propagates args hp, hd]
  simp only [ErrorTrap.new]
  rw [h1]
  rcases hc : writeAllChunks log w with ⟨rc, w'⟩
  rw [hc] at h2 h3
  cases rc with
  | ok u =>
    have := h2 rfl
    subst this
    cases out <;> simp [afterChunks, ErrorTrap.takeError]
  | err e =>
    have := h3 e rfl
    subst this
    simp [afterChunks, ErrorTrap.takeError]
  | panic => simp [afterChunks]
  | diverge => simp [afterChunks]

example : Propagates sampleProg ∧
    (IoWrite.writeFmt ⟨sampleProg⟩ (⟨[.accept 9, .interrupt, .fail 7], []⟩ : StyledScript)).1 =
      .err (osError 7) := by
  refine ⟨?_, by decide +kernel⟩
  refine ⟨rfl, ⟨rfl, trivial⟩, rfl, fun _ args => ?_⟩
  dsimp only
  split <;> exact ⟨rfl, trivial⟩

/-- A program that ignores the error of its first write and then fails by itself: the stale I/O error is
what `write_fmt` reports. -/
example : (IoWrite.writeFmt ⟨.writeStr ['a'] fun _ => .writeStr ['b'] fun _ => .done .err⟩
    (⟨[.fail 7], []⟩ : StyledScript)) = (.err (osError 7), ⟨[], [(98, Style.default)]⟩) := by decide +kernel

/-! ## C29 -/

section
variable {T : Type} [FmtWrite T]

/-- C29 for `Plain`. -/
theorem C29_plain (k : FmtSink T) (args : Arguments) (hp : Propagates args.f) (log : List Chunk)
    (out : Res FmtError Unit)
    (hargs : writes args.f Style.default FormatterArgs.default = (log, out))
    (t : T) (r : Res FmtError Unit) (a : Plain T)
    (h : Plain.writeFmt args (Plain.new t) = (r, a)) :
    ∃ p, p <+: log.flatMap Prod.fst ∧ k.delivered a.inner = k.delivered t ++ p ∧
      (r = .ok () → p = log.flatMap Prod.fst) := by
  have hd : denote args = (log, out) := hargs
  have htext : text (flatten log) = log.flatMap Prod.fst := by
    clear h hargs hd
    induction log with
    | nil => rfl
    | cons ch log ih => simp [ih]
  unfold Plain.writeFmt at h
  rw [Write.writeFmt_propagates args hp, hd] at h
  have e := plain_writeChunks k log (Plain.new t)
  rcases hc : writeChunks log (Plain.new t) with ⟨rc, w⟩
  rw [hc] at e h
  rw [htext] at e
  have hw : w = a := by cases rc <;> exact (Prod.mk.inj h).2
  subst hw
  cases rc with
  | ok u => exact ⟨_, List.prefix_rfl, e.1, fun _ => rfl⟩
  | err x =>
    obtain ⟨p, h1, h2⟩ := e
    exact ⟨p, h1, h2, fun hr => by rw [hr] at h; cases (Prod.mk.inj h).1⟩
  | panic =>
    obtain ⟨p, h1, h2⟩ := e
    exact ⟨p, h1, h2, fun hr => by rw [hr] at h; cases (Prod.mk.inj h).1⟩
  | diverge =>
    obtain ⟨p, h1, h2⟩ := e
    exact ⟨p, h1, h2, fun hr => by rw [hr] at h; cases (Prod.mk.inj h).1⟩

theorem prefix_of_renders {W β : Type} [Write W] {del : W → List β} {cur : W → Style}
    {sw : Style → Style → List β} {enc : Char → List β} (hrend : Renders del cur sw enc)
    {fin : Act W FmtError Unit} (hfin : ∀ a, Emitted del (fun _ => ()) a (fin a)
      (sw (cur a) Style.default) ())
    (args : Arguments) (hp : Propagates args.f) (w : W) (hcur : cur w = Style.default)
    (r : Res FmtError Unit) (a : W)
    (h : (Write.writeFmt args >>= fun _ => fin) w = (r, a)) :
    ∃ p, p <+: renderWith sw enc Style.default (flatten (denote args).1) ++
        sw (lastStyle Style.default (flatten (denote args).1)) Style.default ∧
      del a = del w ++ p ∧
      (r = .ok () → p = renderWith sw enc Style.default (flatten (denote args).1) ++
        sw (lastStyle Style.default (flatten (denote args).1)) Style.default) := by
  rw [Act.bind_apply, Write.writeFmt_propagates args hp] at h
  have e := hrend.writeChunks (denote args).1 w
  rw [hcur] at e
  rcases hc : writeChunks (denote args).1 w with ⟨rc, v⟩
  rw [hc] at e h
  have bad : ∀ x : Res FmtError Unit, (∃ p, p <+: renderWith sw enc Style.default
      (flatten (denote args).1) ∧ del v = del w ++ p) → (x, v) = (r, a) → x ≠ .ok () →
      ∃ p, p <+: renderWith sw enc Style.default (flatten (denote args).1) ++
        sw (lastStyle Style.default (flatten (denote args).1)) Style.default ∧
      del a = del w ++ p ∧
      (r = .ok () → p = renderWith sw enc Style.default (flatten (denote args).1) ++
        sw (lastStyle Style.default (flatten (denote args).1)) Style.default) := by
    rintro x ⟨p, h1, h2⟩ hx hne
    obtain ⟨rfl, rfl⟩ := Prod.mk.inj hx
    exact ⟨p, h1.trans (List.prefix_append _ _), h2, fun h => absurd h hne⟩
  cases rc with
  | err x => exact bad _ e h (by simp)
  | panic => exact bad _ e h (by simp)
  | diverge => exact bad _ e h (by simp)
  | ok u =>
    have e1 : del v = del w ++ _ := e.1
    have e2 : cur v = _ := e.2
    rcases hd : (denote args).2 with u | x | _ | _
    · rw [hd] at h
      have h : fin v = (r, a) := h
      have hf := hfin v
      rw [h, e2] at hf
      cases r with
      | ok u =>
        have f1 : del a = del v ++ _ := hf.1
        exact ⟨_, List.prefix_rfl, by rw [f1, e1, List.append_assoc], fun _ => rfl⟩
      | err x =>
        obtain ⟨p, h1, h2⟩ := hf
        exact ⟨renderWith sw enc Style.default (flatten (denote args).1) ++ p,
          (List.prefix_append_right_inj _).2 h1, by rw [h2, e1, List.append_assoc], by simp⟩
      | panic =>
        obtain ⟨p, h1, h2⟩ := hf
        exact ⟨renderWith sw enc Style.default (flatten (denote args).1) ++ p,
          (List.prefix_append_right_inj _).2 h1, by rw [h2, e1, List.append_assoc], by simp⟩
      | diverge =>
        obtain ⟨p, h1, h2⟩ := hf
        exact ⟨renderWith sw enc Style.default (flatten (denote args).1) ++ p,
          (List.prefix_append_right_inj _).2 h1, by rw [h2, e1, List.append_assoc], by simp⟩
    · rw [hd] at h; exact bad _ ⟨_, List.prefix_rfl, e1⟩ h (by simp)
    · rw [hd] at h; exact bad _ ⟨_, List.prefix_rfl, e1⟩ h (by simp)
    · rw [hd] at h; exact bad _ ⟨_, List.prefix_rfl, e1⟩ h (by simp)

/-- C29 for `Ansi`: formatting and then finishing. Whatever goes wrong in the stream, what reached it is a
prefix of what `ansi::format` returns. -/
theorem C29_ansi (k : FmtSink T) (args : Arguments) (hp : Propagates args.f) (s : Str)
    (hs : ansiFormat args = .ok s) (t : T) (r : Res FmtError Unit) (a : Ansi T)
    (h : (Ansi.writeFmt args >>= fun _ => Ansi.finish) (Ansi.new t) = (r, a)) :
    ∃ p, p <+: s ∧ k.delivered a.inner = k.delivered t ++ p ∧ (r = .ok () → p = s) := by
  obtain ⟨-, rfl⟩ := denote_of_ansiFormat args s hs
  exact prefix_of_renders (Ansi.renders k) (Ansi.finish_emits k) args hp (Ansi.new t) rfl r a h

/-- C29 for `Html`. -/
theorem C29_html (k : FmtSink T) (args : Arguments) (hp : Propagates args.f) (s : Str)
    (hs : htmlFormat args = .ok s) (t : T) (r : Res FmtError Unit) (a : Html T)
    (h : (Html.writeFmt args >>= fun _ => Html.finish) (Html.new t) = (r, a)) :
    ∃ p, p <+: s ∧ k.delivered a.inner = k.delivered t ++ p ∧ (r = .ok () → p = s) := by
  have hr : s = htmlRender (flatten (denote args).1) := by
    rw [htmlFormat_eq] at hs
    rcases hd : (denote args).2 with u | u | _ | _ <;> rw [hd] at hs <;> simp [formatOutcome] at hs
    exact hs.symm
  subst hr
  exact prefix_of_renders (Html.renders k) (Html.finish_emits k) args hp (Html.new t) rfl r a h

end

section
variable {T : Type} [StdIoWrite T]

/-- C29 for `io::Plain`. -/
theorem C29_io_plain (k : IoSink T) (args : Arguments) (hp : Propagates args.f) (s : Str)
    (hs : plainFormat args = .ok s) (t : T) (fuel : Nat) (r : Res IoError Unit) (a : IoPlain fuel T)
    (h : IoWrite.writeFmt args (IoPlain.new t) = (r, a)) :
    ∃ p, p <+: utf8 s ∧ k.delivered a.inner = k.delivered t ++ p ∧ (r = .ok () → p = utf8 s) := by
  obtain ⟨hd, rfl⟩ := denote_of_plainFormat args s hs
  unfold IoWrite.writeFmt at h
  rw [Write.writeFmt_propagates args hp, hd] at h
  have e := IoPlain.chunks_emits k (denote args).1 (ErrorTrap.new (IoPlain.new t : IoPlain fuel T))
  rcases hc : writeChunks (denote args).1 (ErrorTrap.new (IoPlain.new t : IoPlain fuel T)) with ⟨rc, w⟩
  rw [hc] at e h
  cases rc with
  | ok u =>
    obtain ⟨rfl, rfl⟩ := Prod.mk.inj h
    exact ⟨_, List.prefix_rfl, e.1, fun _ => rfl⟩
  | err x =>
    obtain ⟨rfl, rfl⟩ := Prod.mk.inj h
    obtain ⟨p, h1, h2⟩ := e
    exact ⟨p, h1, h2, by simp⟩
  | panic =>
    obtain ⟨rfl, rfl⟩ := Prod.mk.inj h
    obtain ⟨p, h1, h2⟩ := e
    exact ⟨p, h1, h2, by simp⟩
  | diverge =>
    obtain ⟨rfl, rfl⟩ := Prod.mk.inj h
    obtain ⟨p, h1, h2⟩ := e
    exact ⟨p, h1, h2, by simp⟩

/-- C29 for `io::Ansi`, formatting and then finishing. -/
theorem C29_io_ansi (k : IoSink T) (args : Arguments) (hp : Propagates args.f) (s : Str)
    (hs : ansiFormat args = .ok s) (t : T) (fuel : Nat) (r : Res IoError Unit) (a : IoAnsi fuel T)
    (h : (IoWrite.writeFmt args >>= fun _ => IoAnsi.finish) (IoAnsi.new t) = (r, a)) :
    ∃ p, p <+: utf8 s ∧ k.delivered a.inner = k.delivered t ++ p ∧ (r = .ok () → p = utf8 s) := by
  obtain ⟨hd, rfl⟩ := denote_of_ansiFormat args s hs
  have hutf : utf8 (ansiRender (flatten (denote args).1)) =
      renderWith ansiSwitchBytes String.utf8EncodeChar Style.default (flatten (denote args).1) ++
      ansiSwitchBytes (lastStyle Style.default (flatten (denote args).1)) Style.default := by
    rw [ansiRender, utf8_append, render_bytes]; rfl
  rw [hutf]
  rw [Act.bind_apply] at h
  unfold IoWrite.writeFmt at h
  rw [Write.writeFmt_propagates args hp, hd] at h
  have e := (IoAnsi.renders (fuel := fuel) k).writeChunks (denote args).1
    (ErrorTrap.new (IoAnsi.new t : IoAnsi fuel T))
  rcases hc : writeChunks (denote args).1 (ErrorTrap.new (IoAnsi.new t : IoAnsi fuel T)) with ⟨rc, w⟩
  rw [hc] at e h
  cases rc with
  | ok u =>
    have e1 : k.delivered w.inner.inner = k.delivered t ++ _ := e.1
    have e2 : w.inner.current = _ := e.2
    have h : IoAnsi.finish w.inner = (r, a) := h
    have hf := IoAnsi.finish_emits k w.inner
    rw [h, e2] at hf
    cases r with
    | ok u =>
      have f1 : k.delivered a.inner = k.delivered w.inner.inner ++ _ := hf.1
      exact ⟨_, List.prefix_rfl, by rw [f1, e1, List.append_assoc]; rfl, fun _ => rfl⟩
    | err x =>
      obtain ⟨p, h1, h2⟩ := hf
      have h2' : k.delivered a.inner = k.delivered w.inner.inner ++ p := h2
      exact ⟨renderWith ansiSwitchBytes String.utf8EncodeChar Style.default
          (flatten (denote args).1) ++ p,
        (List.prefix_append_right_inj _).2 h1, by rw [h2', e1, List.append_assoc]; rfl, by simp⟩
    | panic =>
      obtain ⟨p, h1, h2⟩ := hf
      have h2' : k.delivered a.inner = k.delivered w.inner.inner ++ p := h2
      exact ⟨renderWith ansiSwitchBytes String.utf8EncodeChar Style.default
          (flatten (denote args).1) ++ p,
        (List.prefix_append_right_inj _).2 h1, by rw [h2', e1, List.append_assoc]; rfl, by simp⟩
    | diverge =>
      obtain ⟨p, h1, h2⟩ := hf
      have h2' : k.delivered a.inner = k.delivered w.inner.inner ++ p := h2
      exact ⟨renderWith ansiSwitchBytes String.utf8EncodeChar Style.default
          (flatten (denote args).1) ++ p,
        (List.prefix_append_right_inj _).2 h1, by rw [h2', e1, List.append_assoc]; rfl, by simp⟩
  | err x =>
    obtain ⟨rfl, rfl⟩ := Prod.mk.inj h
    obtain ⟨p, h1, h2⟩ := e
    exact ⟨p, h1.trans (List.prefix_append _ _), h2, by simp⟩
  | panic =>
    obtain ⟨rfl, rfl⟩ := Prod.mk.inj h
    obtain ⟨p, h1, h2⟩ := e
    exact ⟨p, h1.trans (List.prefix_append _ _), h2, by simp⟩
  | diverge =>
    obtain ⟨rfl, rfl⟩ := Prod.mk.inj h
    obtain ⟨p, h1, h2⟩ := e
    exact ⟨p, h1.trans (List.prefix_append _ _), h2, by simp⟩

end

/-- The stream fails in the middle of the escape sequence / in the middle of the tag. -/
example : ((Ansi.writeFmt ⟨sampleProg⟩ >>= fun _ => Ansi.finish) (Ansi.new (⟨[], 4⟩ : LimitedSink))) =
      (.err (), ⟨⟨str "a\x1b[3", 0⟩, Style.default⟩) ∧
    ((Html.writeFmt ⟨sampleProg⟩ >>= fun _ => Html.finish) (Html.new (⟨[], 4⟩ : LimitedSink))) =
      (.err (), ⟨⟨str "a<sp", 0⟩, Style.default⟩) ∧
    (IoWrite.writeFmt ⟨sampleProg⟩ >>= fun _ => IoAnsi.finish)
      (IoAnsi.new ⟨[.accept 1, .accept 1, .interrupt, .fail 3], []⟩ : IoAnsi 9 ScriptSink) =
      (.err (osError 3), ⟨⟨[], utf8 (str "a\x1b")⟩, Style.default⟩) := by
  refine ⟨rfl, rfl, by decide +kernel⟩

/-! ## C30 -/

section
variable {T : Type} [StdIoWrite T]

/-- C30: `io::Ansi::write` on any stream obeying the contract, in any state. There is one escape sequence
`esc`, as it should be between the two styles, such that:
`Ok(n)` means `n <= buf.len()` and `esc` and the first `n` bytes were delivered, and the new style is in
force; an error means none of the buffer was delivered, only a prefix of `esc`; an `Interrupted` error
means that `esc` is complete and the new style in force, so that the same call again writes no escape
sequence. -/
theorem C30_write_contract (k : IoSink T) (fuel : Nat) (buf : Bytes) (st : Style)
    (a a' : IoAnsi fuel T) (r : Res IoError Nat) (h : IoWrite.write buf st a = (r, a')) :
    ∃ esc, SgrBetween a.current st esc ∧
      (∀ n, r = .ok n → n ≤ buf.length ∧ a'.current = st ∧
        k.delivered a'.inner = k.delivered a.inner ++ (utf8 esc ++ buf.take n)) ∧
      (∀ e, r = .err e → ∃ p, p <+: utf8 esc ∧ k.delivered a'.inner = k.delivered a.inner ++ p ∧
        (e.kind = .Interrupted → p = utf8 esc ∧ a'.current = st)) := by
  refine ⟨_, sgrBetween_switch a.current st, ?_⟩
  have hw : (IoAnsi.switchStyle a.current st >>= fun _ => IoAnsi.setCurrent st >>= fun _ =>
      IoAnsi.onInner (StdIoWrite.write buf)) a = (r, a') := h
  rw [Act.bind_apply] at hw
  have he := IoAnsi.switchStyle_emits k a.current st a
  have hni := IoAnsi.switchStyle_notInterrupted k a.current st a
  rcases hs : IoAnsi.switchStyle a.current st a with ⟨rs, b⟩
  rw [hs] at hw he hni
  cases rs with
  | ok u =>
    have hb1 : k.delivered b.inner = k.delivered a.inner ++ utf8 (ansiSwitch a.current st) := he.1
    have hw : (let (r, t) := StdIoWrite.write buf b.inner; (r, (⟨t, st⟩ : IoAnsi fuel T))) = (r, a') := hw
    rcases hx : StdIoWrite.write buf b.inner with ⟨x, t⟩
    rw [hx] at hw
    obtain ⟨rfl, rfl⟩ := Prod.mk.inj hw
    constructor
    · rintro n rfl
      obtain ⟨h1, h2⟩ := k.contract.ok _ _ _ _ hx
      exact ⟨h1, rfl, by rw [h2, hb1]; simp⟩
    · rintro e rfl
      have h2 := k.contract.err _ _ _ _ hx
      exact ⟨_, List.prefix_rfl, by rw [h2, hb1], fun _ => ⟨rfl, rfl⟩⟩
  | err e =>
    obtain ⟨rfl, rfl⟩ := Prod.mk.inj hw
    refine ⟨by simp, ?_⟩
    rintro e' ⟨⟩
    obtain ⟨p, h1, h2⟩ := he
    exact ⟨p, h1, h2, fun hi => absurd hi (hni e rfl)⟩
  | panic =>
    obtain ⟨rfl, rfl⟩ := Prod.mk.inj hw
    exact ⟨by simp, by simp⟩
  | diverge =>
    obtain ⟨rfl, rfl⟩ := Prod.mk.inj hw
    exact ⟨by simp, by simp⟩

/-- C30: once the style is in force, `write` is exactly one `write` of the stream. -/
theorem C30_retry_is_plain_write (fuel : Nat) (buf : Bytes) (a : IoAnsi fuel T) :
    IoWrite.write buf a.current a =
      ((StdIoWrite.write buf a.inner).1, { a with inner := (StdIoWrite.write buf a.inner).2 }) :=
  IoAnsi.write_same buf a

end

example : IoWrite.write (utf8 ['a', 'b']) ⟨.Red, .Default, .Normal⟩
      (⟨⟨[.accept 9, .accept 9, .accept 9, .interrupt], []⟩, Style.default⟩ : IoAnsi 5 ScriptSink) =
      (.err interrupted, ⟨⟨[], utf8 (str "\x1b[31m")⟩, ⟨.Red, .Default, .Normal⟩⟩) ∧
    IoWrite.write (utf8 ['a', 'b']) ⟨.Red, .Default, .Normal⟩
      (⟨⟨[.accept 9, .fail 1], []⟩, Style.default⟩ : IoAnsi 5 ScriptSink) =
      (.err (osError 1), ⟨⟨[], utf8 (str "\x1b[")⟩, Style.default⟩) := by decide +kernel

end Stylish.Props
