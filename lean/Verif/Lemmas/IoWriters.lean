import Verif.Spec.IoSink
import Verif.Lemmas.Api
/-
`io::Ansi` and `io::Plain`.
-/

namespace Stylish

open Spec

@[simp] theorem utf8_append (s u : Str) : utf8 (s ++ u) = utf8 s ++ utf8 u := by simp [utf8]
@[simp] theorem utf8_nil : utf8 [] = [] := rfl

theorem utf8EncodeChar_ne_nil (c : Char) : String.utf8EncodeChar c ≠ [] := by
  intro h
  have := congrArg List.length h
  rw [String.length_utf8EncodeChar] at this
  have hp := c.utf8Size_pos
  simp at this
  omega

theorem utf8_eq_nil (s : Str) : utf8 s = [] ↔ s = [] := by
  cases s with
  | nil => simp
  | cons c s =>
    simp only [utf8, List.flatMap_cons, List.append_eq_nil_iff, reduceCtorEq, iff_false, not_and]
    exact fun h => absurd h (utf8EncodeChar_ne_nil c)

/-- The writer never returns an error. -/
def NoErr (W : Type) [Write W] : Prop := ∀ (s : Str) (st : Style) (w : W), (Write.writeStr s st w).1 ≠ .err ()

theorem NoErr.writeChunks {W : Type} [Write W] (h : NoErr W) (chs : List Chunk) (w : W) :
    (Spec.writeChunks chs w).1 ≠ .err () := by
  induction chs generalizing w with
  | nil => simp
  | cons ch chs ih =>
    have := h ch.1 ch.2 w
    rw [writeChunks_cons]
    rcases hw : Write.writeStr ch.1 ch.2 w with ⟨r, w'⟩
    rw [hw] at this
    cases r with
    | ok u => exact ih w'
    | err e => exact absurd rfl this
    | panic => simp
    | diverge => simp

/-- On a writer that never returns an error, every program makes exactly its writes (until the writer
panics or hangs). -/
theorem Disp.run_noErr {W : Type} [Write W] (hW : NoErr W) (d : Disp) (st : Style)
    (a : FormatterArgs) (w : W) :
    ((d.run ⟨st, a, w⟩).1, (d.run ⟨st, a, w⟩).2.write) =
      afterChunks (writeChunks (writes d st a).1 w) (writes d st a).2 := by
  induction d generalizing st a w with
  | done r => rfl
  | panic => rfl
  | writeStr s k ih =>
    have hs := hW s st w
    simp only [Disp.run, Formatter.writeStr_eq, writes, writeChunks_cons]
    rcases hw : Write.writeStr s st w with ⟨r, w'⟩
    rw [hw] at hs
    cases r with
    | ok u => simpa [resume] using ih .ok st a w'
    | err e => exact absurd rfl hs
    | panic => rfl
    | diverge => rfl
  | within r body k ihb ihk =>
    have hb := ihb (st.with r) a w
    simp only [Disp.run, Formatter.with, Formatter.endBorrow]
    rcases hw : body.run ⟨st.with r, a, w⟩ with ⟨res, f⟩
    rw [hw] at hb
    simp only [writes]
    rcases hi : writes body (st.with r) a with ⟨log, out⟩
    rw [hi] at hb
    have hne := hW.writeChunks log w
    rcases hc : writeChunks log w with ⟨rc, wc⟩
    simp only [hc] at hb hne
    cases rc with
    | ok u =>
      simp only [afterChunks] at hb
      obtain ⟨rfl, h2⟩ := Prod.mk.inj hb
      cases res with
      | ok u =>
        simp only [resume, writeChunks_append, hc, h2]
        exact ihk .ok st a wc
      | err e =>
        simp only [resume, writeChunks_append, hc, h2]
        exact ihk .err st a wc
      | panic => simp [resume, hc, h2, afterChunks]
      | diverge => simp [resume, hc, h2, afterChunks]
    | err e => exact absurd rfl hne
    | panic =>
      obtain ⟨rfl, h2⟩ := Prod.mk.inj hb
      simp only [resume]
      cases out <;> simp [writeChunks_append, hc, h2, afterChunks]
    | diverge =>
      obtain ⟨rfl, h2⟩ := Prod.mk.inj hb
      simp only [resume]
      cases out <;> simp [writeChunks_append, hc, h2, afterChunks]
  | withinArgs a' r body k ihb ihk =>
    have hb := ihb (st.with r) a' w
    simp only [Disp.run, Formatter.withArgs, Formatter.endBorrow]
    rcases hw : body.run ⟨st.with r, a', w⟩ with ⟨res, f⟩
    rw [hw] at hb
    simp only [writes]
    rcases hi : writes body (st.with r) a' with ⟨log, out⟩
    rw [hi] at hb
    have hne := hW.writeChunks log w
    rcases hc : writeChunks log w with ⟨rc, wc⟩
    simp only [hc] at hb hne
    cases rc with
    | ok u =>
      simp only [afterChunks] at hb
      obtain ⟨rfl, h2⟩ := Prod.mk.inj hb
      cases res with
      | ok u =>
        simp only [resume, writeChunks_append, hc, h2]
        exact ihk .ok st a wc
      | err e =>
        simp only [resume, writeChunks_append, hc, h2]
        exact ihk .err st a wc
      | panic => simp [resume, hc, h2, afterChunks]
      | diverge => simp [resume, hc, h2, afterChunks]
    | err e => exact absurd rfl hne
    | panic =>
      obtain ⟨rfl, h2⟩ := Prod.mk.inj hb
      simp only [resume]
      cases out <;> simp [writeChunks_append, hc, h2, afterChunks]
    | diverge =>
      obtain ⟨rfl, h2⟩ := Prod.mk.inj hb
      simp only [resume]
      cases out <;> simp [writeChunks_append, hc, h2, afterChunks]
  | inspect k ih => exact ih _ _ _ _ _

theorem Write.writeFmt_noErr {W : Type} [Write W] (hW : NoErr W) (args : Arguments) (w : W) :
    Write.writeFmt args w = afterChunks (writeChunks (denote args).1 w) (denote args).2 := by
  rw [Write.writeFmt_eq]
  exact Disp.run_noErr hW args.f _ _ w

/-! ### std's `write_all` -/

section StdLoop
variable {T : Type} [StdIoWrite T]

omit [StdIoWrite T] in
theorem emitted_of_all {writeAll : Nat → Bytes → Act T IoError Unit}
    {del : T → Bytes} (hc : WriteAllContract writeAll del) (fuel : Nat) (buf : Bytes) (t : T) :
    Emitted del (fun _ => ()) t (writeAll fuel buf t) buf () := by
  rcases h : writeAll fuel buf t with ⟨r, t'⟩
  cases r with
  | ok u => exact ⟨hc.ok _ _ _ _ h, rfl⟩
  | err e =>
    obtain ⟨-, p, h1, -, h2⟩ := hc.err _ _ _ _ _ h
    exact ⟨p, h1, h2⟩
  | panic => exact hc.other _ _ _ _ _ h (Or.inl rfl)
  | diverge => exact hc.other _ _ _ _ _ h (Or.inr rfl)

theorem all_emits (k : IoSink T) (fuel : Nat) (buf : Bytes) (t : T) :
    Emitted k.delivered (fun _ => ()) t (StdIoWrite.writeAll fuel buf t) buf () :=
  emitted_of_all k.all fuel buf t

/-- The loop over the stream's `write`, whatever its `write_all` is. -/
theorem std_emits (k : IoSink T) (fuel : Nat) (buf : Bytes) (t : T) :
    Emitted k.delivered (fun _ => ()) t (stdWriteAll StdIoWrite.write fuel buf t) buf () :=
  emitted_of_all (.default k.contract) fuel buf t

end StdLoop

/-! ### `io::Plain` -/

namespace IoPlain
variable {fuel : Nat} {T : Type} [StdIoWrite T]

theorem trap_writeStr (s : Str) (st : Style) (w : ErrorTrap (IoPlain fuel T)) :
    ∃ o, Write.writeStr s st w =
      (match (StdIoWrite.writeAll fuel (utf8 s) w.inner.inner).1 with
        | .ok () => .ok ()
        | .err _ => .err ()
        | .panic => .panic
        | .diverge => .diverge,
       ⟨⟨(StdIoWrite.writeAll fuel (utf8 s) w.inner.inner).2⟩, o⟩) := by
  simp only [Write.writeStr, IoWrite.writeAll, onInner]
  rcases StdIoWrite.writeAll fuel (utf8 s) w.inner.inner with ⟨r, t⟩
  cases r <;> exact ⟨_, rfl⟩

/-- What has been delivered. -/
abbrev del (k : IoSink T) (w : ErrorTrap (IoPlain fuel T)) : Bytes := k.delivered w.inner.inner

theorem trap_emits (k : IoSink T) (s : Str) (st : Style) (w : ErrorTrap (IoPlain fuel T)) :
    Emitted (del k) (fun _ => ()) w (Write.writeStr s st w) (utf8 s) () := by
  obtain ⟨o, h⟩ := trap_writeStr s st w
  rw [h]
  have e := all_emits k fuel (utf8 s) w.inner.inner
  rcases hs : StdIoWrite.writeAll fuel (utf8 s) w.inner.inner with ⟨r, t⟩
  rw [hs] at e
  cases r with
  | ok u => exact ⟨e.1, rfl⟩
  | err x => exact e
  | panic => exact e
  | diverge => exact e

theorem trap_noErr (_k : IoSink T) (hn : ReliableStream T) :
    NoErr (ErrorTrap (IoPlain fuel T)) := by
  intro s st w
  obtain ⟨o, h⟩ := trap_writeStr s st w
  rw [h]
  rcases hn.writeAll fuel (utf8 s) w.inner.inner with e | e <;> rw [e] <;> simp

theorem chunks_emits (k : IoSink T) (chs : List Chunk) (w : ErrorTrap (IoPlain fuel T)) :
    Emitted (del k) (fun _ => ()) w (writeChunks chs w) (utf8 (text (flatten chs))) () := by
  induction chs generalizing w with
  | nil => exact ⟨by simp [text], rfl⟩
  | cons ch chs ih =>
    have h1 := trap_emits k ch.1 ch.2 w
    rw [writeChunks_cons]
    rcases hw : Write.writeStr ch.1 ch.2 w with ⟨r, w'⟩
    rw [hw] at h1
    simp only [flatten_cons, text_append, text_paint, utf8_append]
    cases r with
    | ok u => exact (ih w').append h1.1
    | err e => obtain ⟨p, hp, hd⟩ := h1; exact ⟨p, hp.trans (List.prefix_append _ _), hd⟩
    | panic => obtain ⟨p, hp, hd⟩ := h1; exact ⟨p, hp.trans (List.prefix_append _ _), hd⟩
    | diverge => obtain ⟨p, hp, hd⟩ := h1; exact ⟨p, hp.trans (List.prefix_append _ _), hd⟩

theorem chunks_settle (_k : IoSink T) (hn : ReliableStream T)
    (hf : KeepsGoing T) (chs : List Chunk) (t : T) :
    ∃ f t', ∀ fuel, f ≤ fuel → ∀ o, ∃ o', writeChunks chs (⟨⟨t⟩, o⟩ : ErrorTrap (IoPlain fuel T)) =
      (.ok (), ⟨⟨t'⟩, o'⟩) := by
  induction chs generalizing t with
  | nil => exact ⟨0, t, fun _ _ o => ⟨o, rfl⟩⟩
  | cons ch chs ih =>
    obtain ⟨f1, t1, h1⟩ := hf.all hn (utf8 ch.1) t
    obtain ⟨f2, t2, h2⟩ := ih t1
    refine ⟨max f1 f2, t2, fun fuel hle o => ?_⟩
    obtain ⟨o1, e⟩ := trap_writeStr ch.1 ch.2 (⟨⟨t⟩, o⟩ : ErrorTrap (IoPlain fuel T))
    rw [writeChunks_cons, e]
    simp only [h1 fuel (by omega)]
    exact h2 fuel (by omega) o1

end IoPlain

/-! ### `io::Ansi` -/

/-- The bytes of the escape sequence from one style to another. -/
def ansiSwitchBytes (current style : Style) : Bytes := utf8 (ansiSwitch current style)

theorem render_bytes (cur : Style) (t : Styled) :
    renderWith ansiSwitchBytes String.utf8EncodeChar cur t =
      utf8 (renderWith ansiSwitch plainEnc cur t) := by
  induction t generalizing cur with
  | nil => rfl
  | cons x t ih => simp [renderWith, ih, ansiSwitchBytes, utf8, plainEnc]

/-- The action returns `Ok` or does not finish. -/
def OkOrHangs {S E A : Type} (x : Act S E A) : Prop := ∀ s, (∃ a, (x s).1 = .ok a) ∨ (x s).1 = .diverge

theorem OkOrHangs.pure {S E A : Type} (a : A) : OkOrHangs (pure a : Act S E A) := fun _ => Or.inl ⟨a, rfl⟩

theorem OkOrHangs.bind {S E A B : Type} {x : Act S E A} {f : A → Act S E B} (hx : OkOrHangs x)
    (hf : ∀ a, OkOrHangs (f a)) : OkOrHangs (x >>= f) := by
  intro s
  rw [Act.bind_apply]
  have := hx s
  rcases hs : x s with ⟨r, s'⟩
  rw [hs] at this
  cases r with
  | ok a => exact hf a s'
  | err e => simp at this
  | panic => simp at this
  | diverge => exact Or.inr rfl

namespace IoAnsi
variable {fuel : Nat} {T : Type} [StdIoWrite T]

/-- What has been delivered. -/
abbrev del (k : IoSink T) (a : IoAnsi fuel T) : Bytes := k.delivered a.inner

theorem put_emits (k : IoSink T) (s : Str) :
    Emits (del k) current (put (fuel := fuel) (T := T) s) (utf8 s) id := by
  intro a
  simp only [put, onInner]
  have e := all_emits k fuel (utf8 s) a.inner
  rcases hs : StdIoWrite.writeAll fuel (utf8 s) a.inner with ⟨r, t⟩
  rw [hs] at e
  cases r with
  | ok u => exact ⟨e.1, rfl⟩
  | err x => exact e
  | panic => exact e
  | diverge => exact e

theorem putRest_emits (k : IoSink T) (l : List Str) :
    Emits (del k) current (putRest (fuel := fuel) (T := T) l) (utf8 (ansiRest l)) id := by
  induction l with
  | nil => exact Emits.pure _
  | cons x l ih =>
    have e : ansiRest (x :: l) = str ";" ++ (x ++ ansiRest l) := by simp [ansiRest, str]
    exact ((put_emits k _).bind fun _ => (put_emits k _).bind fun _ => ih).cast
      (by rw [e, utf8_append, utf8_append]) (fun _ => rfl)

theorem putSegments_emits (k : IoSink T) (l : List Str) :
    Emits (del k) current (putSegments (fuel := fuel) (T := T) l) (utf8 (ansiSegs l)) id := by
  cases l with
  | nil => exact Emits.pure _
  | cons x l =>
    exact ((put_emits k _).bind fun _ => (put_emits k _).bind fun _ =>
      (putRest_emits k _).bind fun _ => put_emits k _).cast
      (by simp only [ansiSegs, utf8_append, List.append_assoc]) (fun _ => rfl)

theorem switchStyle_emits (k : IoSink T) (c s : Style) :
    Emits (del k) current (switchStyle (fuel := fuel) (T := T) c s) (ansiSwitchBytes c s) id := by
  unfold switchStyle ansiSwitchBytes ansiSwitch
  split
  · exact put_emits k _
  · exact putSegments_emits k _

theorem switchStyle_self (st : Style) (a : IoAnsi fuel T) : switchStyle st st a = (.ok (), a) := by
  have e : segments (st.diffFrom st) = [] := by rw [diffFrom_self]; rfl
  unfold switchStyle
  rw [if_neg (by simp), e]
  rfl

theorem write_same (b : Bytes) (a : IoAnsi fuel T) :
    write b a.current a = onInner (StdIoWrite.write b) a := by
  have h : write b a.current a = (switchStyle a.current a.current >>= fun _ =>
      setCurrent a.current >>= fun _ => onInner (StdIoWrite.write b)) a := rfl
  rw [h, Act.bind_apply, switchStyle_self]
  rfl

theorem loop_same (n : Nat) (b : Bytes) (a : IoAnsi fuel T) :
    defaultWriteAll write n b a.current a = onInner (stdWriteAll StdIoWrite.write n b) a := by
  induction n generalizing b a with
  | zero =>
    unfold defaultWriteAll onInner stdWriteAll
    split <;> rfl
  | succ n ih =>
    have e : onInner (stdWriteAll StdIoWrite.write (n + 1) b) a =
      ((stdWriteAll StdIoWrite.write (n + 1) b a.inner).1, { a with inner := (stdWriteAll StdIoWrite.write (n + 1) b a.inner).2 }) := rfl
    rw [e]
    unfold defaultWriteAll stdWriteAll
    by_cases hb : b.isEmpty = true
    · simp only [hb, if_true]
    · rw [if_neg hb, if_neg hb, write_same]
      simp only [onInner]
      rcases h : StdIoWrite.write b a.inner with ⟨r, t⟩
      rcases r with (_ | m) | e | _ | _
      · rfl
      · simp only
        split
        · exact ih _ { a with inner := t }
        · rfl
      · simp only
        split
        · exact ih _ { a with inner := t }
        · rfl
      · rfl
      · rfl

theorem put_not_interrupted (k : IoSink T) (s : Str) (a : IoAnsi fuel T) (e : IoError) (h : (put s a).1 = .err e) :
    e.kind ≠ .Interrupted := by
  simp only [put, onInner] at h
  exact (k.all.err _ _ _ _ _ (Prod.ext h rfl)).1

/-- The action never returns an `Interrupted` error. -/
def NotInterrupted {A : Type} (x : Act (IoAnsi fuel T) IoError A) : Prop :=
  ∀ a e, (x a).1 = .err e → e.kind ≠ .Interrupted

omit [StdIoWrite T] in
theorem NotInterrupted.bind {A B : Type} {x : Act (IoAnsi fuel T) IoError A}
    {f : A → Act (IoAnsi fuel T) IoError B} (hx : NotInterrupted x) (hf : ∀ a, NotInterrupted (f a)) :
    NotInterrupted (x >>= f) := by
  intro a e h
  rw [Act.bind_apply] at h
  have := hx a
  rcases hs : x a with ⟨r, a'⟩
  rw [hs] at this h
  cases r with
  | ok v => exact hf v a' e h
  | err e' => exact this e (by simpa using h)
  | panic => simp at h
  | diverge => simp at h

theorem putRest_notInterrupted (k : IoSink T) (l : List Str) : NotInterrupted (putRest (fuel := fuel) (T := T) l) := by
  induction l with
  | nil => intro a e h; simp [putRest] at h
  | cons x l ih =>
    exact NotInterrupted.bind (put_not_interrupted k _) fun _ =>
      NotInterrupted.bind (put_not_interrupted k _) fun _ => ih

theorem switchStyle_notInterrupted (k : IoSink T) (c s : Style) :
    NotInterrupted (switchStyle (fuel := fuel) (T := T) c s) := by
  unfold switchStyle
  split
  · exact put_not_interrupted k _
  · cases segments (s.diffFrom c) with
    | nil => intro a e h; simp [putSegments] at h
    | cons x l =>
      exact NotInterrupted.bind (put_not_interrupted k _) fun _ =>
        NotInterrupted.bind (put_not_interrupted k _) fun _ =>
        NotInterrupted.bind (putRest_notInterrupted k _) fun _ => put_not_interrupted k _

/-- `write_all` of a non-empty buffer: the style change once, then std's `write_all`. -/
theorem loop_eq (k : IoSink T) (n : Nat) (b : Bytes) (hb : b ≠ []) (st : Style) (a : IoAnsi fuel T) :
    defaultWriteAll write (n + 1) b st a =
      (switchStyle a.current st >>= fun _ => setCurrent st >>= fun _ =>
        onInner (stdWriteAll StdIoWrite.write (n + 1) b)) a := by
  have hne : ¬ b.isEmpty = true := by simpa using hb
  have hni := switchStyle_notInterrupted k a.current st a
  unfold defaultWriteAll
  rw [if_neg hne]
  have h : write b st a = (switchStyle a.current st >>= fun _ =>
      setCurrent st >>= fun _ => onInner (StdIoWrite.write b)) a := rfl
  rw [h, Act.bind_apply, Act.bind_apply]
  rcases hs : switchStyle a.current st a with ⟨r, a'⟩
  rw [hs] at hni
  cases r with
  | ok u =>
    simp only
    have e1 : ∀ {A : Type} (x : Act (IoAnsi fuel T) IoError A), (setCurrent st >>= fun _ => x) a' =
        x { a' with current := st } := fun _ => rfl
    rw [e1, e1]
    have e : onInner (stdWriteAll StdIoWrite.write (n + 1) b) { a' with current := st } =
      ((stdWriteAll StdIoWrite.write (n + 1) b a'.inner).1,
        ({ inner := (stdWriteAll StdIoWrite.write (n + 1) b a'.inner).2, current := st } : IoAnsi fuel T)) := rfl
    rw [e]
    unfold stdWriteAll
    rw [if_neg hne]
    simp only [onInner]
    rcases h : StdIoWrite.write b a'.inner with ⟨r, t⟩
    rcases r with (_ | m) | e | _ | _
    · rfl
    · simp only
      split
      · exact loop_same _ _ { a' with inner := t, current := st }
      · rfl
    · simp only
      split
      · exact loop_same _ _ { a' with inner := t, current := st }
      · rfl
    · rfl
    · rfl
  | err e =>
    have := hni e rfl
    simp only [this, if_false]
  | panic => rfl
  | diverge => rfl

theorem writeAll_emits (k : IoSink T) (n : Nat) (b : Bytes) (st : Style) (a : IoAnsi fuel T) :
    Emitted (del k) current a (defaultWriteAll write n b st a)
      (if b.isEmpty then [] else ansiSwitchBytes a.current st ++ b)
      (if b.isEmpty then a.current else st) := by
  by_cases hb : b = []
  · subst hb
    rw [loop_nil]
    exact ⟨by simp, rfl⟩
  · have hne : b.isEmpty = false := by simpa using hb
    simp only [hne, Bool.false_eq_true, if_false]
    cases n with
    | zero =>
      unfold defaultWriteAll
      rw [if_neg (by simp [hne])]
      exact ⟨[], by simp, by simp⟩
    | succ n =>
      rw [loop_eq k n b hb]
      have hw : Emits (del k) current (onInner (fuel := fuel) (T := T) (stdWriteAll StdIoWrite.write (n + 1) b)) b id := by
        intro a
        simp only [onInner]
        have e := std_emits k (n + 1) b a.inner
        rcases hs : stdWriteAll StdIoWrite.write (n + 1) b a.inner with ⟨r, t⟩
        rw [hs] at e
        cases r with
        | ok u => exact ⟨e.1, rfl⟩
        | err x => exact e
        | panic => exact e
        | diverge => exact e
      have h : Emits (del k) current (switchStyle (fuel := fuel) (T := T) a.current st >>= fun _ =>
          setCurrent st >>= fun _ => onInner (stdWriteAll StdIoWrite.write (n + 1) b))
          (ansiSwitchBytes a.current st ++ ([] ++ b)) ((id ∘ fun _ => st) ∘ id) :=
        (switchStyle_emits k _ _).bind fun _ => Emits.bind (fun a => ⟨by simp, rfl⟩) fun _ => hw
      have h2 := h a
      rw [List.nil_append] at h2
      exact h2

theorem trap_writeStr (s : Str) (st : Style) (w : ErrorTrap (IoAnsi fuel T)) :
    ∃ o, Write.writeStr s st w =
      (match (defaultWriteAll write fuel (utf8 s) st w.inner).1 with
        | .ok () => .ok ()
        | .err _ => .err ()
        | .panic => .panic
        | .diverge => .diverge,
       ⟨(defaultWriteAll write fuel (utf8 s) st w.inner).2, o⟩) := by
  simp only [Write.writeStr, IoWrite.writeAll]
  rcases defaultWriteAll write fuel (utf8 s) st w.inner with ⟨r, t⟩
  cases r <;> exact ⟨_, rfl⟩

theorem renders (k : IoSink T) : Renders (W := ErrorTrap (IoAnsi fuel T)) (fun w => del k w.inner)
    (fun w => w.inner.current) ansiSwitchBytes String.utf8EncodeChar := by
  intro s st w
  have hsw : ∀ st, ansiSwitchBytes st st = [] := by intro st; simp [ansiSwitchBytes, ansiSwitch_self]
  rw [renderWith_paint _ _ hsw, lastStyle_paint]
  obtain ⟨o, h⟩ := trap_writeStr s st w
  rw [h]
  have e := writeAll_emits k fuel (utf8 s) st w.inner
  have hemp : (utf8 s).isEmpty = s.isEmpty := by
    rw [Bool.eq_iff_iff]; simp [utf8_eq_nil]
  rw [hemp] at e
  rcases hs : defaultWriteAll write fuel (utf8 s) st w.inner with ⟨r, t⟩
  rw [hs] at e
  cases r with
  | ok u => exact ⟨e.1, e.2⟩
  | err x => exact e
  | panic => exact e
  | diverge => exact e

theorem put_okOrHangs (_k : IoSink T) (hn : ReliableStream T) (s : Str) :
    OkOrHangs (put (fuel := fuel) (T := T) s) := by
  intro a
  have := hn.writeAll fuel (utf8 s) a.inner
  simp only [put, onInner]
  rcases h : StdIoWrite.writeAll fuel (utf8 s) a.inner with ⟨r, t⟩
  rw [h] at this
  cases r <;> simp_all

theorem putRest_okOrHangs (k : IoSink T) (hn : ReliableStream T) (l : List Str) :
    OkOrHangs (putRest (fuel := fuel) (T := T) l) := by
  induction l with
  | nil => exact OkOrHangs.pure _
  | cons x l ih => exact (put_okOrHangs k hn _).bind fun _ => (put_okOrHangs k hn _).bind fun _ => ih

theorem switchStyle_okOrHangs (k : IoSink T) (hn : ReliableStream T)
    (c s : Style) : OkOrHangs (switchStyle (fuel := fuel) (T := T) c s) := by
  unfold switchStyle
  split
  · exact put_okOrHangs k hn _
  · cases segments (s.diffFrom c) with
    | nil => exact OkOrHangs.pure _
    | cons x l =>
      exact (put_okOrHangs k hn _).bind fun _ => (put_okOrHangs k hn _).bind fun _ =>
        (putRest_okOrHangs k hn _).bind fun _ => put_okOrHangs k hn _

theorem writeAll_okOrHangs (k : IoSink T) (hn : ReliableStream T)
    (n : Nat) (b : Bytes) (st : Style) :
    OkOrHangs (defaultWriteAll (write (fuel := fuel) (T := T)) n b st) := by
  intro a
  by_cases hb : b = []
  · subst hb; rw [loop_nil]; exact Or.inl ⟨(), rfl⟩
  · cases n with
    | zero =>
      unfold defaultWriteAll
      rw [if_neg (by simpa using hb)]
      exact Or.inr rfl
    | succ n =>
      rw [loop_eq k n b hb]
      refine OkOrHangs.bind (switchStyle_okOrHangs k hn _ _) (fun _ => OkOrHangs.bind
        (fun a => Or.inl ⟨_, rfl⟩) fun _ => ?_) a
      intro a
      have := std_nonFailing k.contract hn.write (n + 1) b a.inner
      simp only [onInner]
      rcases h : stdWriteAll StdIoWrite.write (n + 1) b a.inner with ⟨r, t⟩
      rw [h] at this
      cases r <;> simp_all

theorem trap_noErr (k : IoSink T) (hn : ReliableStream T) :
    NoErr (ErrorTrap (IoAnsi fuel T)) := by
  intro s st w
  obtain ⟨o, h⟩ := trap_writeStr s st w
  rw [h]
  rcases writeAll_okOrHangs k hn fuel (utf8 s) st w.inner with ⟨u, e⟩ | e <;> rw [e] <;> simp

/-! Termination: enough fuel exists. -/

/-- With enough fuel, the family of actions, started from the stream `t` and style `c`, returns `Ok`, and
the stream and style it leaves do not depend on the fuel. -/
def Settles {A : Type} (x : ∀ fuel, Act (IoAnsi fuel T) IoError A) (t : T) (c : Style) : Prop :=
  ∃ f a t' c', ∀ fuel, f ≤ fuel → x fuel ⟨t, c⟩ = (.ok a, ⟨t', c'⟩)

omit [StdIoWrite T] in
theorem Settles.bind {A B : Type} {x : ∀ fuel, Act (IoAnsi fuel T) IoError A}
    {g : ∀ fuel, A → Act (IoAnsi fuel T) IoError B} {t : T} {c : Style}
    (hx : Settles x t c) (hg : ∀ a t c, Settles (fun fuel => g fuel a) t c) :
    Settles (fun fuel => x fuel >>= g fuel) t c := by
  obtain ⟨f, a, t', c', h⟩ := hx
  obtain ⟨f2, b, t2, c2, h2⟩ := hg a t' c'
  refine ⟨max f f2, b, t2, c2, fun fuel hle => ?_⟩
  show (x fuel >>= g fuel) _ = _
  rw [Act.bind_apply, h fuel (by omega)]
  exact h2 fuel (by omega)

omit [StdIoWrite T] in
theorem Settles.pure {A : Type} (a : A) (t : T) (c : Style) :
    Settles (fun fuel => (pure a : Act (IoAnsi fuel T) IoError A)) t c :=
  ⟨0, a, t, c, fun _ _ => rfl⟩

section Term
variable (k : IoSink T) (hn : ReliableStream T)
  (hf : KeepsGoing T)
include k hn hf

omit k in

theorem put_settles (s : Str) (t : T) (c : Style) :
    Settles (fun fuel => put (fuel := fuel) (T := T) s) t c := by
  obtain ⟨f, t', h⟩ := hf.all hn (utf8 s) t
  refine ⟨f, (), t', c, fun fuel hle => ?_⟩
  simp only [put, onInner, h fuel hle]

theorem putRest_settles (l : List Str) (t : T) (c : Style) :
    Settles (fun fuel => putRest (fuel := fuel) (T := T) l) t c := by
  induction l generalizing t c with
  | nil => exact Settles.pure _ _ _
  | cons x l ih =>
    exact (put_settles hn hf _ _ _).bind fun _ _ _ => (put_settles hn hf _ _ _).bind fun _ _ _ =>
      ih _ _

theorem switchStyle_settles (cur st : Style) (t : T) (c : Style) :
    Settles (fun fuel => switchStyle (fuel := fuel) (T := T) cur st) t c := by
  unfold switchStyle
  split
  · exact put_settles hn hf _ _ _
  · cases segments (st.diffFrom cur) with
    | nil => exact Settles.pure _ _ _
    | cons x l =>
      exact (put_settles hn hf _ _ _).bind fun _ _ _ => (put_settles hn hf _ _ _).bind fun _ _ _ =>
        (putRest_settles k hn hf _ _ _).bind fun _ _ _ => put_settles hn hf _ _ _

theorem writeAll_settles (b : Bytes) (st : Style) (t : T) (c : Style) :
    Settles (fun fuel => defaultWriteAll (write (fuel := fuel) (T := T)) fuel b st) t c := by
  by_cases hb : b = []
  · subst hb; exact ⟨0, (), t, c, fun fuel _ => loop_nil _ _ _⟩
  · have h : Settles (fun fuel => switchStyle (fuel := fuel) (T := T) c st >>= fun _ =>
        setCurrent st >>= fun _ => onInner (stdWriteAll StdIoWrite.write fuel b)) t c := by
      refine (switchStyle_settles k hn hf _ _ _ _).bind fun _ _ _ =>
        Settles.bind ⟨0, (), _, _, fun _ _ => rfl⟩ fun _ t c => ?_
      obtain ⟨f, t', h⟩ := std_settles k.contract hn.write hf.write b t
      refine ⟨f, (), t', c, fun fuel hle => ?_⟩
      simp only [onInner, h fuel hle]
    obtain ⟨f, a, t', c', h⟩ := h
    refine ⟨f + 1, a, t', c', fun fuel hle => ?_⟩
    obtain ⟨n, rfl⟩ : ∃ n, fuel = n + 1 := ⟨fuel - 1, by omega⟩
    show defaultWriteAll write (n + 1) b st _ = _
    rw [loop_eq k n b hb]
    exact h (n + 1) (by omega)

theorem chunks_settle (chs : List Chunk) (t : T) (c : Style) :
    ∃ f t' c', ∀ fuel, f ≤ fuel → ∀ o, ∃ o',
      writeChunks chs (⟨⟨t, c⟩, o⟩ : ErrorTrap (IoAnsi fuel T)) = (.ok (), ⟨⟨t', c'⟩, o'⟩) := by
  induction chs generalizing t c with
  | nil => exact ⟨0, t, c, fun _ _ o => ⟨o, rfl⟩⟩
  | cons ch chs ih =>
    obtain ⟨f1, a, t1, c1, h1⟩ := writeAll_settles k hn hf (utf8 ch.1) ch.2 t c
    obtain ⟨f2, t2, c2, h2⟩ := ih t1 c1
    refine ⟨max f1 f2, t2, c2, fun fuel hle o => ?_⟩
    obtain ⟨o1, e⟩ := trap_writeStr ch.1 ch.2 (⟨⟨t, c⟩, o⟩ : ErrorTrap (IoAnsi fuel T))
    rw [writeChunks_cons, e]
    simp only [h1 fuel (by omega)]
    exact h2 fuel (by omega) o1

theorem finish_settles (t : T) (c : Style) : Settles (fun fuel => finish (fuel := fuel) (T := T)) t c := by
  refine Settles.bind ⟨0, c, t, c, fun _ _ => rfl⟩ fun cur t c => ?_
  split
  · exact put_settles hn hf _ _ _
  · exact Settles.pure _ _ _

end Term

theorem finish_emits (k : IoSink T) (a : IoAnsi fuel T) :
    Emitted (del k) (fun _ => ()) a (finish a) (ansiSwitchBytes a.current Style.default) () := by
  have h : finish a = (if a.current ≠ Style.default then put (str "\x1b[0m") else pure ()) a := rfl
  rw [h, ansiSwitchBytes]
  by_cases hc : a.current = Style.default
  · simp only [hc, ansiSwitch_self, ne_eq, not_true_eq_false, if_false]
    exact ⟨by simp, rfl⟩
  · have e : ansiSwitch a.current Style.default = str "\x1b[0m" := by
      simp only [ansiSwitch, ne_eq, hc, not_false_eq_true, true_and, if_true, Ansi.resetSeq]
    rw [e]
    simp only [ne_eq, hc, not_false_eq_true, if_true]
    have := put_emits k (str "\x1b[0m") a
    rcases hp : put (str "\x1b[0m") a with ⟨r, a'⟩
    rw [hp] at this
    cases r with
    | ok u => exact ⟨this.1, rfl⟩
    | err e => exact this
    | panic => exact this
    | diverge => exact this

end IoAnsi

end Stylish
