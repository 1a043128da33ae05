import Verif.Spec.Killed
import Verif.Lemmas.StdLines
import Verif.Props.IoText
/-
Lemmas about programs that are killed (C103).
-/

namespace Stylish

open Spec

/-! ### What holds whatever the outcome -/

/-- If `I` holds before the action, it holds afterwards, whatever the outcome. -/
def Stays {S E A : Type} (I : S → Prop) (x : Act S E A) : Prop := ∀ s, I s → I (x s).2

theorem Stays.pure {S E A : Type} {I : S → Prop} (a : A) : Stays I (pure a : Act S E A) := fun _ h => h

theorem Stays.bind {S E A B : Type} {I : S → Prop} {x : Act S E A} {f : A → Act S E B} (hx : Stays I x)
    (hf : ∀ a, Stays I (f a)) : Stays I (x >>= f) := by
  intro s h
  have h1 := hx s h
  rw [Act.bind_apply]
  rcases hx : x s with ⟨r, s'⟩
  rw [hx] at h1
  cases r with
  | ok a => exact hf a s' h1
  | err e => exact h1
  | panic => exact h1
  | diverge => exact h1

/-- The methods of a stream keep `I`. -/
structure StaysStream {S : Type} [StdIoWrite S] (I : S → Prop) : Prop where
  write : ∀ b, Stays I (StdIoWrite.write (T := S) b)
  writeAll : ∀ n b, Stays I (StdIoWrite.writeAll (T := S) n b)
  flush : Stays I (StdIoWrite.flush (T := S))

section
variable {T : Type} [StdIoWrite T]

/-- What has been written stays written. -/
theorem IoSink.stable (k : IoSink T) (hk : FlushKeeps k) (D : Bytes) :
    StaysStream (fun t : T => D <+: k.delivered t) := by
  constructor
  · intro b t h
    rcases hw : StdIoWrite.write b t with ⟨r, t'⟩
    cases r with
    | ok n => rw [(k.contract.ok _ _ _ _ hw).2]; exact h.trans (List.prefix_append _ _)
    | err e => rw [k.contract.err _ _ _ _ hw]; exact h
    | panic => obtain ⟨p, -, e⟩ := k.contract.other _ _ _ _ hw (.inl rfl); rw [e]; exact h.trans (List.prefix_append _ _)
    | diverge => obtain ⟨p, -, e⟩ := k.contract.other _ _ _ _ hw (.inr rfl); rw [e]; exact h.trans (List.prefix_append _ _)
  · intro n b t h
    rcases hw : StdIoWrite.writeAll n b t with ⟨r, t'⟩
    cases r with
    | ok u => rw [k.all.ok _ _ _ _ hw]; exact h.trans (List.prefix_append _ _)
    | err e => obtain ⟨-, p, -, -, e⟩ := k.all.err _ _ _ _ _ hw; rw [e]; exact h.trans (List.prefix_append _ _)
    | panic => obtain ⟨p, -, e⟩ := k.all.other _ _ _ _ _ hw (.inl rfl); rw [e]; exact h.trans (List.prefix_append _ _)
    | diverge => obtain ⟨p, -, e⟩ := k.all.other _ _ _ _ _ hw (.inr rfl); rw [e]; exact h.trans (List.prefix_append _ _)
  · intro t h
    have e := hk t _ _ rfl
    exact e ▸ h

variable {cap fuel : Nat} {keep : Bytes → Nat → Nat} {I : T → Prop}

namespace BufWriter

omit [StdIoWrite T] in
theorem stable_onInner {E A : Type} {x : Act T E A} (h : Stays I x) :
    Stays (fun s : BufWriter cap fuel T => I s.inner) (onInner x) := fun s hs => h s.inner hs

theorem stable_flushBuf (h : StaysStream I) (n : Nat) :
    Stays (fun s : BufWriter cap fuel T => I s.inner) (flushBuf n) := by
  induction n with
  | zero => intro s hs; unfold flushBuf; split <;> exact hs
  | succ n ih =>
    intro s hs
    have h1 := h.write s.buf s.inner hs
    unfold flushBuf
    split
    · exact hs
    · rcases hw : StdIoWrite.write s.buf s.inner with ⟨r, t⟩
      rw [hw] at h1
      cases r with
      | ok m =>
        cases m with
        | zero => exact h1
        | succ m =>
          dsimp only
          split
          · exact ih _ h1
          · exact h1
      | err e =>
        dsimp only
        split
        · exact ih _ h1
        · exact h1
      | panic => exact h1
      | diverge => exact h1

omit [StdIoWrite T] in
theorem stable_push (b : Bytes) : Stays (fun s : BufWriter cap fuel T => I s.inner) (push b) := by
  intro s hs
  unfold push
  split <;> exact hs

theorem stable_makeRoom (h : StaysStream I) (b : Bytes) :
    Stays (fun s : BufWriter cap fuel T => I s.inner) (makeRoom b) := by
  intro s hs
  unfold makeRoom
  split
  · exact stable_flushBuf h _ s hs
  · exact hs

theorem stable (h : StaysStream I) : StaysStream (fun s : BufWriter cap fuel T => I s.inner) := by
  constructor
  · intro b s hs
    show I (write b s).2.inner
    unfold write
    split
    · exact stable_push b s hs
    · refine (stable_makeRoom h b).bind (fun _ => ?_) s hs
      split
      · exact stable_onInner (h.write b)
      · exact stable_push b
  · intro n b s hs
    show I (writeAll n b s).2.inner
    unfold writeAll
    split
    · exact (stable_push b).bind (fun _ => .pure _) s hs
    · refine (stable_makeRoom h b).bind (fun _ => ?_) s hs
      split
      · exact stable_onInner (h.writeAll n b)
      · exact (stable_push b).bind fun _ => .pure _
  · exact (stable_flushBuf h _).bind fun _ => stable_onInner h.flush

end BufWriter

namespace LineWriter

omit [StdIoWrite T] in
theorem stable_onBuffer {E A : Type} {x : Act (BufWriter cap fuel T) E A}
    (h : Stays (fun s : BufWriter cap fuel T => I s.inner) x) :
    Stays (fun s : LineWriter cap fuel keep T => I s.buffer.inner) (onBuffer x) := fun s hs => h s.buffer hs

theorem stable_flushIf (h : StaysStream I) :
    Stays (fun s : LineWriter cap fuel keep T => I s.buffer.inner) flushIfCompletedLine := by
  intro s hs
  unfold flushIfCompletedLine
  split
  · exact stable_onBuffer (BufWriter.stable_flushBuf h _) s hs
  · exact hs

theorem stable (h : StaysStream I) : StaysStream (fun s : LineWriter cap fuel keep T => I s.buffer.inner) := by
  constructor
  · intro b
    show Stays _ (write b)
    unfold write
    split
    · exact (stable_flushIf h).bind fun _ => stable_onBuffer ((BufWriter.stable h).write b)
    · refine (stable_onBuffer (BufWriter.stable_flushBuf h _)).bind fun _ =>
        (stable_onBuffer (BufWriter.stable_onInner (h.write _))).bind fun m => ?_
      split
      · exact .pure _
      · split
        · exact (stable_onBuffer fun s hs => BufWriter.stable_push _ s hs).bind fun _ => .pure _
        · exact fun _ hs => hs
  · intro n b
    show Stays _ (writeAll n b)
    unfold writeAll
    split
    · exact (stable_flushIf h).bind fun _ => stable_onBuffer ((BufWriter.stable h).writeAll n b)
    · refine Stays.bind ?_ fun _ => stable_onBuffer ((BufWriter.stable h).writeAll _ _)
      intro s hs
      dsimp only
      split
      · exact stable_onBuffer (BufWriter.stable_onInner (h.writeAll _ _)) s hs
      · exact (stable_onBuffer ((BufWriter.stable h).writeAll _ _)).bind
          (fun _ => stable_onBuffer (BufWriter.stable_flushBuf h _)) s hs
  · exact stable_onBuffer (BufWriter.stable h).flush

end LineWriter

/-! ### The writers on top -/

theorem stable_writeChunks {W : Type} [Write W] {J : W → Prop} (h : ∀ s st, Stays J (Write.writeStr (W := W) s st))
    (chs : List Chunk) : Stays J (writeChunks (W := W) chs) := by
  induction chs with
  | nil => exact fun _ hs => hs
  | cons ch chs ih =>
    intro w hw
    have h1 := h ch.1 ch.2 w hw
    rw [writeChunks_cons]
    rcases hw : Write.writeStr ch.1 ch.2 w with ⟨r, w'⟩
    rw [hw] at h1
    cases r with
    | ok u => exact ih w' h1
    | err e => exact h1
    | panic => exact h1
    | diverge => exact h1

/-- `write_fmt` keeps what `write_all` keeps. -/
theorem stable_writeFmt {W : Type} [IoWrite W] {J : W → Prop} (h : ∀ b st, Stays J (IoWrite.writeAll (W := W) b st))
    (args : Arguments) (hp : Propagates args.f) : Stays J (IoWrite.writeFmt (W := W) args) := by
  intro w hw
  have key : J (Write.writeFmt args (ErrorTrap.new w)).2.inner := by
    rw [Write.writeFmt_propagates args hp]
    have := stable_writeChunks (W := ErrorTrap W) (J := fun w => J w.inner) (fun s st w hw => by
      have := h (utf8 s) st w.inner hw
      simp only [Write.writeStr]
      rcases hx : IoWrite.writeAll (utf8 s) st w.inner with ⟨r, w'⟩
      rw [hx] at this
      cases r <;> exact this) (denote args).1 (ErrorTrap.new w) hw
    rcases hx : writeChunks (denote args).1 (ErrorTrap.new w) with ⟨r, w'⟩
    rw [hx] at this
    cases r <;> exact this
  unfold IoWrite.writeFmt
  rcases hx : Write.writeFmt args (ErrorTrap.new w) with ⟨r, w'⟩
  rw [hx] at key
  cases r <;> exact key

namespace IoPlain

theorem stable_writeAll (h : StaysStream I) {n : Nat} (b : Bytes) (st : Style) :
    Stays (fun s : IoPlain n T => I s.inner) (IoWrite.writeAll b st) := fun s hs => h.writeAll n b s.inner hs

end IoPlain

namespace IoAnsi
variable {n : Nat}

theorem stable_put (h : StaysStream I) (s : Str) : Stays (fun s : IoAnsi n T => I s.inner) (put s) :=
  fun a ha => h.writeAll n _ a.inner ha

theorem stable_putRest (h : StaysStream I) (l : List Str) :
    Stays (fun s : IoAnsi n T => I s.inner) (putRest l) := by
  induction l with
  | nil => exact .pure _
  | cons x l ih => exact (stable_put h _).bind fun _ => (stable_put h _).bind fun _ => ih

theorem stable_switchStyle (h : StaysStream I) (c s : Style) :
    Stays (fun s : IoAnsi n T => I s.inner) (switchStyle c s) := by
  unfold switchStyle
  split
  · exact stable_put h _
  · cases segments (s.diffFrom c) with
    | nil => exact .pure _
    | cons x l =>
      exact (stable_put h _).bind fun _ => (stable_put h _).bind fun _ =>
        (stable_putRest h _).bind fun _ => stable_put h _

theorem stable_write (h : StaysStream I) (b : Bytes) (st : Style) :
    Stays (fun s : IoAnsi n T => I s.inner) (write b st) := by
  refine Stays.bind (fun _ hs => hs) fun c => (stable_switchStyle h c st).bind fun _ =>
    Stays.bind (fun _ hs => hs) fun _ => fun a ha => h.write b a.inner ha

theorem stable_writeAll (h : StaysStream I) (b : Bytes) (st : Style) :
    Stays (fun s : IoAnsi n T => I s.inner) (IoWrite.writeAll b st) := by
  show Stays _ (defaultWriteAll write n b st)
  generalize hm : n = m
  have key : ∀ (m : Nat) (b : Bytes), Stays (fun s : IoAnsi n T => I s.inner) (defaultWriteAll write m b st) := by
    intro m
    induction m with
    | zero => intro b s hs; unfold defaultWriteAll; split <;> exact hs
    | succ m ih =>
      intro b s hs
      have h1 := stable_write h b st s hs
      unfold defaultWriteAll
      split
      · exact hs
      · rcases hw : write b st s with ⟨r, t⟩
        rw [hw] at h1
        cases r with
        | ok m =>
          cases m with
          | zero => exact h1
          | succ m =>
            dsimp only
            split
            · exact ih _ _ h1
            · exact h1
        | err e =>
          dsimp only
          split
          · exact ih _ _ h1
          · exact h1
        | panic => exact h1
        | diverge => exact h1
  subst hm
  exact key _ _

theorem stable_finish (h : StaysStream I) : Stays (fun s : IoAnsi n T => I s.inner) finish := by
  refine Stays.bind (fun _ hs => hs) fun c => ?_
  split
  · exact stable_put h _
  · exact .pure _

end IoAnsi
end

/-! ### Programs -/

/-- Whatever the outcome, no more than `out` has been written. -/
theorem Emitted.held {S E A σ α : Type} {del : S → List α} {get : S → σ} {s s' : S} {r : Res E A} {out : List α}
    {fin : σ} (h : Emitted del get s (r, s') out fin) : del s' <+: del s ++ out := by
  cases r with
  | ok u => rw [h.1]; exact List.prefix_rfl
  | err e => obtain ⟨p, h1, h2⟩ := h; rw [h2]; exact (List.prefix_append_right_inj _).2 h1
  | panic => obtain ⟨p, h1, h2⟩ := h; rw [h2]; exact (List.prefix_append_right_inj _).2 h1
  | diverge => obtain ⟨p, h1, h2⟩ := h; rw [h2]; exact (List.prefix_append_right_inj _).2 h1

/-- How a writer sends text on: `held` is what has been written to it, `dev` what the device has of it, `cur` the
state of the encoding, `out` the encoding. -/
structure Sends {W σ : Type} [IoWrite W] (held dev : W → Bytes) (cur : W → σ) (out : σ → List Chunk → Bytes)
    (nxt : σ → List Chunk → σ) : Prop where
  out_nil : ∀ c, out c [] = []
  out_append : ∀ c l l', out c (l ++ l') = out c l ++ out (nxt c l) l'
  nxt_nil : ∀ c, nxt c [] = c
  nxt_append : ∀ c l l', nxt c (l ++ l') = nxt (nxt c l) l'
  text : ∀ (args : Arguments) (log : List Chunk), Propagates args.f →
    writes args.f Style.default FormatterArgs.default = (log, .ok ()) → ∀ w,
    Emitted held cur w (IoWrite.writeFmt args w) (out (cur w) log) (nxt (cur w) log)
  grows : ∀ (args : Arguments), Propagates args.f → ∀ w, dev w <+: dev (IoWrite.writeFmt args w).2
  flushed : ∀ w r w', IoWrite.flush w = (r, w') →
    held w' = held w ∧ cur w' = cur w ∧ dev w <+: dev w' ∧ (r = .ok () → dev w' = held w')

/-- What has been written and what the device has, however the program ends. -/
theorem Sends.play {W σ : Type} [IoWrite W] {held dev : W → Bytes} {cur : W → σ} {out : σ → List Chunk → Bytes}
    {nxt : σ → List Chunk → σ} (hs : Sends held dev cur out nxt) (steps : List Step) (hf : Sound steps) (w : W) :
    Emitted held cur w (play steps w) (out (cur w) (said steps)) (nxt (cur w) (said steps)) ∧
    held w ++ out (cur w) (said (answered steps w)) <+: held (play steps w).2 ∧
    dev w <+: dev (play steps w).2 ∧
    (upToFlush (answered steps w) ≠ [] ∨ dev w = held w →
      held w ++ out (cur w) (said (upToFlush (answered steps w))) <+: dev (play steps w).2) := by
  induction steps generalizing w with
  | nil =>
    refine ⟨⟨by simp [said, hs.out_nil], (hs.nxt_nil _).symm⟩, ?_, List.prefix_rfl, ?_⟩
    · simp [answered, said, hs.out_nil]; exact List.prefix_rfl
    · rintro (h | h)
      · exact absurd rfl h
      · simp [answered, upToFlush, said, hs.out_nil, ← h]; exact List.prefix_rfl
  | cons step rest ih =>
    have hf' : Sound rest := fun args h => hf args (List.mem_cons_of_mem _ h)
    cases step with
    | text args =>
      obtain ⟨hp, ho⟩ := hf args List.mem_cons_self
      have e := hs.text args _ hp (Prod.ext rfl ho) w
      have g := hs.grows args hp w
      rw [Spec.play, Act.bind_apply]
      simp only [answered, Step.run]
      rcases hw : IoWrite.writeFmt args w with ⟨r, c⟩
      rw [hw] at e g
      have stop : (∃ p, p <+: out (cur w) (writes args.f Style.default FormatterArgs.default).1 ∧
          held c = held w ++ p) →
          (∃ p, p <+: out (cur w) (said (.text args :: rest)) ∧ held c = held w ++ p) ∧
          held w ++ out (cur w) (said []) <+: held c ∧ dev w <+: dev c ∧
          (upToFlush [] ≠ [] ∨ dev w = held w → held w ++ out (cur w) (said (upToFlush [])) <+: dev c) := by
        rintro ⟨p, h1, h2⟩
        refine ⟨⟨p, ?_, h2⟩, ?_, g, ?_⟩
        · rw [said, hs.out_append]; exact h1.trans (List.prefix_append _ _)
        · simp [said, hs.out_nil, h2]
        · rintro (h | h)
          · exact absurd rfl h
          · simp [upToFlush, said, hs.out_nil, ← h]; exact g
      cases r with
      | ok u =>
        obtain ⟨e1, e2⟩ := e
        obtain ⟨i1, i2, i3, i4⟩ := ih hf' c
        rw [e2] at i1 i2 i4
        refine ⟨?_, ?_, g.trans i3, ?_⟩
        · rw [said, hs.out_append, hs.nxt_append]
          exact Emitted.append e1 i1
        · rw [said, hs.out_append, ← List.append_assoc, ← e1]
          exact i2
        · intro h
          rw [upToFlush] at h ⊢
          split
          · rename_i hu
            rw [if_pos hu] at h
            rcases h with h | h
            · exact absurd rfl h
            · simp [said, hs.out_nil, ← h]; exact g.trans i3
          · rename_i hu
            have := i4 (.inl (by simpa using hu))
            rw [e1, List.append_assoc, ← hs.out_append] at this
            exact this
      | err x => exact stop e
      | panic => exact stop e
      | diverge => exact stop e
    | flush =>
      rw [Spec.play, Act.bind_apply]
      simp only [answered, Step.run]
      rcases hw : IoWrite.flush w with ⟨r, c⟩
      obtain ⟨e1, e2, g, e3⟩ := hs.flushed w r c hw
      have stop : (∃ p, p <+: out (cur w) (said (.flush :: rest)) ∧ held c = held w ++ p) ∧
          held w ++ out (cur w) (said []) <+: held c ∧ dev w <+: dev c ∧
          (upToFlush [] ≠ [] ∨ dev w = held w → held w ++ out (cur w) (said (upToFlush [])) <+: dev c) := by
        refine ⟨⟨[], List.nil_prefix, by simp [e1]⟩, by simp [said, hs.out_nil, e1], g, ?_⟩
        rintro (h | h)
        · exact absurd rfl h
        · simp [upToFlush, said, hs.out_nil, ← h]; exact g
      cases r with
      | ok u =>
        obtain ⟨i1, i2, i3, i4⟩ := ih hf' c
        rw [e2] at i1 i2 i4
        rw [e1] at i2 i4 e3
        refine ⟨?_, i2, g.trans i3, ?_⟩
        · rw [said]
          have := Emitted.append (o1 := []) (by simpa using e1) i1
          exact this
        · intro _
          exact i4 (.inr (e3 rfl))
      | err x => exact stop
      | panic => exact stop
      | diverge => exact stop

/-- What is kept by steps that return `Ok`, together with what is never taken back: after the steps that returned
`Ok`, before the one that did not, the first held, and what the device had then it has at the end. -/
theorem Sends.play_kept {W σ : Type} [IoWrite W] {held dev : W → Bytes} {cur : W → σ} {out : σ → List Chunk → Bytes}
    {nxt : σ → List Chunk → σ} (hs : Sends held dev cur out nxt) {I : W → Prop} (steps : List Step)
    (hf : Sound steps) (hI : ∀ step ∈ steps, Keeping I (step.run (W := W))) (w : W) (hw : I w) :
    ∃ v, I v ∧ held v = held w ++ out (cur w) (said (answered steps w)) ∧ dev v <+: dev (Spec.play steps w).2 := by
  induction steps generalizing w with
  | nil => exact ⟨w, hw, by simp [answered, said, hs.out_nil], List.prefix_rfl⟩
  | cons step rest ih =>
    have hf' : Sound rest := fun args h => hf args (List.mem_cons_of_mem _ h)
    have hI' : ∀ step ∈ rest, Keeping I (step.run (W := W)) := fun x h => hI x (List.mem_cons_of_mem _ h)
    have hkeep := hI step List.mem_cons_self
    have e : ∀ c, step.run w = (.ok (), c) →
        held c = held w ++ out (cur w) (said [step]) ∧ cur c = nxt (cur w) (said [step]) := by
      intro c hc
      cases step with
      | text args =>
        obtain ⟨hp, ho⟩ := hf args List.mem_cons_self
        have e := hs.text args _ hp (Prod.ext rfl ho) w
        have hc : IoWrite.writeFmt args w = (.ok (), c) := hc
        rw [hc] at e
        have e : held c = _ ∧ cur c = _ := e
        simpa [said] using e
      | flush =>
        obtain ⟨h1, h2, -⟩ := hs.flushed w _ c hc
        simpa [said, hs.out_nil, hs.nxt_nil] using ⟨h1, h2⟩
    have g : dev w <+: dev (step.run w).2 := by
      cases step with
      | text args => exact hs.grows args (hf args List.mem_cons_self).1 w
      | flush => exact (hs.flushed w _ _ rfl).2.2.1
    have hsaid : ∀ l, said (step :: l) = said [step] ++ said l := by
      intro l
      cases step <;> simp [said]
    rw [Spec.play, Act.bind_apply]
    unfold answered
    rcases hr : step.run w with ⟨r, c⟩
    rw [hr] at g
    cases r with
    | ok u =>
      obtain ⟨e1, e2⟩ := e c hr
      obtain ⟨v, h1, h2, h3⟩ := ih hf' hI' c (hkeep _ _ _ hr hw)
      refine ⟨v, h1, ?_, h3⟩
      rw [h2, e1, e2, List.append_assoc, ← hs.out_append, ← hsaid]
    | err x => exact ⟨w, hw, by simp [said, hs.out_nil], g⟩
    | panic => exact ⟨w, hw, by simp [said, hs.out_nil], g⟩
    | diverge => exact ⟨w, hw, by simp [said, hs.out_nil], g⟩

/-! ### The streams below -/

/-- `held` is what has been written to the stream, `dev` what the device has of it. -/
structure Backed {S : Type} [StdIoWrite S] (k : IoSink S) (dev : S → Bytes) : Prop where
  below : ∀ s, dev s <+: k.delivered s
  grows : ∀ D, StaysStream (fun s : S => D <+: dev s)
  flushed : ∀ s r s', StdIoWrite.flush s = (r, s') →
    k.delivered s' = k.delivered s ∧ (r = .ok () → dev s' = k.delivered s')

section
variable {T : Type} [StdIoWrite T] {cap fuel : Nat} {keep : Bytes → Nat → Nat}

/-- Without a buffer. -/
theorem backed_self (k : IoSink T) (hk : FlushKeeps k) : Backed k k.delivered :=
  ⟨fun _ => List.prefix_rfl, IoSink.stable k hk, fun s r s' h => ⟨hk s s' r h, fun _ => rfl⟩⟩

/-- With one. -/
theorem backed_buf (k : IoSink T) (hk : FlushKeeps k) (hq : QuietPanics k) :
    Backed (BufWriter.sink (cap := cap) (fuel := fuel) k hq) (fun s => k.delivered s.inner) :=
  ⟨fun s => List.prefix_append _ _, fun D => BufWriter.stable (IoSink.stable k hk D), fun s r s' h => by
    obtain ⟨h1, h2⟩ := BufWriter.flush_spec hq hk _ _ _ h
    refine ⟨h1, fun hr => ?_⟩
    show _ = k.delivered s'.inner ++ s'.buf
    rw [h2 hr, List.append_nil]⟩

/-- With a line buffer. -/
theorem backed_line (k : IoSink T) (hk : FlushKeeps k) (hq : QuietPanics k) :
    Backed (LineWriter.sink (cap := cap) (fuel := fuel) (keep := keep) k hq) (fun s => k.delivered s.buffer.inner) :=
  ⟨fun s => List.prefix_append _ _, fun D => LineWriter.stable (IoSink.stable k hk D), fun s r s' h => by
    obtain ⟨h1, h2⟩ := BufWriter.flush_spec hq hk _ _ _ (LineWriter.onBuffer_inv h)
    refine ⟨h1, fun hr => ?_⟩
    show _ = k.delivered s'.buffer.inner ++ s'.buffer.buf
    rw [h2 hr, List.append_nil]⟩

/-- `io::Ansi` on such a stream. -/
theorem Backed.ansi {k : IoSink T} {dev : T → Bytes} (h : Backed k dev) (n : Nat) :
    Sends (W := IoAnsi n T) (fun a => k.delivered a.inner) (fun a => dev a.inner) IoAnsi.current
      (fun c l => utf8 (renderWith ansiSwitch plainEnc c (flatten l))) (fun c l => lastStyle c (flatten l)) where
  out_nil c := rfl
  out_append c l l' := by rw [flatten_append, renderWith_append, utf8_append]
  nxt_nil c := rfl
  nxt_append c l l' := by rw [flatten_append, lastStyle_append]
  text args log hp hl w := Props.ioAnsi_writeFmt k args hp log hl w
  grows args hp w := stable_writeFmt (J := fun a : IoAnsi n T => dev w.inner <+: dev a.inner)
    (fun b st => IoAnsi.stable_writeAll (h.grows _) b st) args hp w List.prefix_rfl
  flushed w r w' hw := by
    have hw' : StdIoWrite.flush w.inner = (r, w'.inner) ∧ w'.current = w.current := by
      simp only [IoWrite.flush, IoAnsi.onInner] at hw
      obtain ⟨rfl, rfl⟩ := Prod.mk.inj hw
      exact ⟨rfl, rfl⟩
    obtain ⟨h1, h2⟩ := h.flushed _ _ _ hw'.1
    refine ⟨h1, hw'.2, ?_, h2⟩
    have := (h.grows (dev w.inner)).flush w.inner List.prefix_rfl
    rw [hw'.1] at this
    exact this

/-- `io::Plain` on such a stream. -/
theorem Backed.plain {k : IoSink T} {dev : T → Bytes} (h : Backed k dev) (n : Nat) :
    Sends (W := IoPlain n T) (fun a => k.delivered a.inner) (fun a => dev a.inner) (fun _ => ())
      (fun _ l => utf8 (l.flatMap Prod.fst)) (fun _ _ => ()) where
  out_nil c := rfl
  out_append c l l' := by rw [List.flatMap_append, utf8_append]
  nxt_nil c := rfl
  nxt_append c l l' := rfl
  text args log hp hl w := by
    have := Props.ioPlain_writeFmts k [args] [log] ⟨by simp [hl], by simpa using hp⟩ w
    simp only [Props.writeFmts, Act.bind_apply, List.flatten_cons, List.flatten_nil, List.append_nil] at this
    rcases hw : IoWrite.writeFmt args w with ⟨r, w'⟩
    rw [hw] at this
    cases r <;> exact this
  grows args hp w := stable_writeFmt (J := fun a : IoPlain n T => dev w.inner <+: dev a.inner)
    (fun b st => IoPlain.stable_writeAll (h.grows _) b st) args hp w List.prefix_rfl
  flushed w r w' hw := by
    have hw' : StdIoWrite.flush w.inner = (r, w'.inner) := by
      simp only [IoWrite.flush, IoPlain.onInner] at hw
      obtain ⟨rfl, rfl⟩ := Prod.mk.inj hw
      rfl
    obtain ⟨h1, h2⟩ := h.flushed _ _ _ hw'
    refine ⟨h1, rfl, ?_, h2⟩
    have := (h.grows (dev w.inner)).flush w.inner List.prefix_rfl
    rw [hw'] at this
    exact this

/-! ### A device that is about to go -/

/-- A device that obeys the contracts does so until the end. -/
def mortal (k : IoSink T) : IoSink (Mortal T) :=
  have contract : WriteContract (StdIoWrite.write (T := Mortal T)) id (fun m => k.delivered m.device) := by
    constructor
    · rintro b ⟨t, left⟩ m' n h
      cases left with
      | zero => simp [StdIoWrite.write] at h
      | succ left =>
        obtain ⟨h1, rfl⟩ := Prod.mk.inj h
        exact k.contract.ok b t _ n (Prod.ext h1 rfl)
    · rintro b ⟨t, left⟩ m' e h
      cases left with
      | zero => simp [StdIoWrite.write] at h
      | succ left =>
        obtain ⟨h1, rfl⟩ := Prod.mk.inj h
        exact k.contract.err b t _ e (Prod.ext h1 rfl)
    · rintro b ⟨t, left⟩ m' r h hr
      cases left with
      | zero =>
        obtain ⟨-, rfl⟩ := Prod.mk.inj h
        exact ⟨[], List.nil_prefix, by simp⟩
      | succ left =>
        obtain ⟨h1, rfl⟩ := Prod.mk.inj h
        exact k.contract.other b t _ r (Prod.ext h1 rfl) hr
  { delivered := fun m => k.delivered m.device, contract, all := .default contract }

theorem mortal_quiet {k : IoSink T} (hq : QuietPanics k) : QuietPanics (mortal k) := by
  rintro b ⟨t, left⟩ m' r h hr
  cases left with
  | zero => obtain ⟨-, rfl⟩ := Prod.mk.inj h; rfl
  | succ left =>
    obtain ⟨h1, rfl⟩ := Prod.mk.inj h
    exact hq b t _ r (Prod.ext h1 rfl) hr

theorem mortal_flush {k : IoSink T} (hk : FlushKeeps k) : FlushKeeps (mortal k) := by
  rintro ⟨t, left⟩ m' r h
  cases left with
  | zero => obtain ⟨-, rfl⟩ := Prod.mk.inj h; rfl
  | succ left =>
    obtain ⟨h1, rfl⟩ := Prod.mk.inj h
    exact hk t _ r (Prod.ext h1 rfl)

end

end Stylish
