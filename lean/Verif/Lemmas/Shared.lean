import Verif.Lemmas.IoWriters
import Verif.Spec.Shared
/-
Threads that share a stream: with one more turn a thread makes one more call, the one it was waiting for.
-/

namespace Stylish

open Spec

variable {whole : Bool} {T : Type} [StdIoWrite T]

/-- The thread with more turns to come. -/
def Spec.Turns.more (s : Turns whole T) (ts : List T) : Turns whole T := { s with coming := s.coming ++ ts }

/-- An action that meets the shared stream only through calls: given further turns it does the same, or (if it was
waiting) makes the call it was waiting for. `inn` is the stream in its state, `ext` gives it further turns. -/
structure Turnwise {W E A : Type} (inn : W → Turns whole T) (ext : List T → W → W) (x : Act W E A) : Prop where
  grows : ∀ w, (inn w).past <+: (inn (x w).2).past ∧
    (inn (x w).2).past.length + (inn (x w).2).coming.length = (inn w).past.length + (inn w).coming.length
  ends : ∀ w, (inn w).asked = none →
    ((inn (x w).2).asked = none ∧ ∀ ts, x (ext ts w) = ((x w).1, ext ts (x w).2)) ∨
    ∃ c, (inn (x w).2).asked = some c ∧ (x w).1 = .diverge ∧ (inn (x w).2).coming = [] ∧
      ∀ t, (inn (x (ext [t] w)).2).past = (inn (x w).2).past ++ [(t, c.perform t)] ∧
        (inn (x (ext [t] w)).2).coming = []

namespace Turnwise
variable {V W E E' A B : Type} {inn : W → Turns whole T} {ext : List T → W → W}

/-- Without a turn nothing happens. -/
theorem still {x : Act W E A} (h : Turnwise inn ext x) (w : W) (hw : (inn w).coming = []) :
    (inn (x w).2).past = (inn w).past ∧ (inn (x w).2).coming = [] := by
  obtain ⟨h1, h2⟩ := h.grows w
  rw [hw] at h2
  have hl := h1.length_le
  simp only [List.length_nil, Nat.add_zero] at h2
  refine ⟨(h1.eq_of_length (by omega)).symm, List.length_eq_zero_iff.1 (by omega)⟩

/-- One action after another. -/
theorem andThen {x : Act W E A} (hx : Turnwise inn ext x)
    {f : Res E A → Act W E' B} (hf : ∀ r, Turnwise inn ext (f r)) (hd : ∀ w, f .diverge w = (.diverge, w)) :
    Turnwise inn ext (fun w => f (x w).1 (x w).2) := by
  constructor
  · intro w
    obtain ⟨h1, h2⟩ := hx.grows w
    obtain ⟨h3, h4⟩ := (hf (x w).1).grows (x w).2
    exact ⟨h1.trans h3, by rw [h4, h2]⟩
  · intro w hw
    rcases hx.ends w hw with ⟨h1, h2⟩ | ⟨c, h1, h2, h3, h4⟩
    · rcases (hf (x w).1).ends (x w).2 h1 with ⟨g1, g2⟩ | ⟨c, g1, g2, g3, g4⟩
      · left
        refine ⟨g1, fun ts => ?_⟩
        simp only [h2, g2]
      · right
        refine ⟨c, g1, g2, g3, fun t => ?_⟩
        simp only [h2]
        exact g4 t
    · right
      rw [h2, hd]
      refine ⟨c, h1, rfl, h3, fun t => ?_⟩
      obtain ⟨g1, g2⟩ := h4 t
      obtain ⟨k1, k2⟩ := (hf (x (ext [t] w)).1).still _ g2
      exact ⟨k1.trans g1, k2⟩

/-- The same action in another state, which holds the first one. -/
theorem lift {x : Act W E A} (hx : Turnwise inn ext x) (get : V → W) (out : Res E A → W → V → Res E' B × V)
    {inn' : V → Turns whole T} {ext' : List T → V → V} (hget : ∀ v, inn (get v) = inn' v)
    (hext : ∀ ts v, get (ext' ts v) = ext ts (get v)) (hout : ∀ r w v, inn' (out r w v).2 = inn w)
    (hmore : ∀ ts r w v, out r (ext ts w) (ext' ts v) = ((out r w v).1, ext' ts (out r w v).2))
    (hd : ∀ w v, (out .diverge w v).1 = .diverge) :
    Turnwise inn' ext' (fun v => out (x (get v)).1 (x (get v)).2 v) := by
  constructor
  · intro v
    obtain ⟨h1, h2⟩ := hx.grows (get v)
    rw [hget] at h1 h2
    simp only [hout]
    exact ⟨h1, h2⟩
  · intro v hv
    rw [← hget] at hv
    rcases hx.ends (get v) hv with ⟨h1, h2⟩ | ⟨c, h1, h2, h3, h4⟩
    · left
      simp only [hout, hext, h2, hmore]
      exact ⟨h1, fun _ => trivial⟩
    · right
      simp only [hout]
      refine ⟨c, h1, by rw [h2, hd], h3, fun t => ?_⟩
      simp only [hext]
      exact h4 t

theorem of_eq {x y : Act W E A} (hx : Turnwise inn ext x) (h : ∀ w, y w = x w) : Turnwise inn ext y := by
  have : y = x := funext h
  rw [this]; exact hx

/-- An action that does not touch the stream. -/
theorem quiet (x : Act W E A) (hin : ∀ w, inn (x w).2 = inn w)
    (hx : ∀ ts w, x (ext ts w) = ((x w).1, ext ts (x w).2)) : Turnwise inn ext x := by
  constructor
  · intro w; rw [hin]; exact ⟨List.prefix_rfl, rfl⟩
  · intro w hw; left; rw [hin]; exact ⟨hw, fun ts => hx ts w⟩

theorem ret (r : Res E A) : Turnwise inn ext (fun w => (r, w)) := quiet _ (fun _ => rfl) (fun _ _ => rfl)

theorem bind {x : Act W E A} (hx : Turnwise inn ext x)
    {f : A → Act W E B} (hf : ∀ a, Turnwise inn ext (f a)) : Turnwise inn ext (x >>= f) := by
  refine (andThen hx (f := fun r => match r with
    | .ok a => f a
    | .err e => fun w => (.err e, w)
    | .panic => fun w => (.panic, w)
    | .diverge => fun w => (.diverge, w)) ?_ (fun _ => rfl)).of_eq ?_
  · intro r
    cases r
    · exact hf _
    · exact ret _
    · exact ret _
    · exact ret _
  · intro w
    rw [Act.bind_apply]
    rcases x w with ⟨r, w'⟩
    cases r <;> rfl

end Turnwise

/-! ### The stream itself -/

theorem Spec.Turns.call_turnwise {A : Type} (c : StreamCall) (x : Act T IoError A) (hc : ∀ t, c.perform t = (x t).2) :
    Turnwise (whole := whole) (T := T) id (fun ts s => s.more ts) (Turns.call c x) := by
  constructor
  · rintro ⟨coming, past, asked⟩
    cases coming with
    | nil => exact ⟨List.prefix_rfl, rfl⟩
    | cons t rest =>
      refine ⟨List.prefix_append _ _, ?_⟩
      simp [Turns.call]; omega
  · rintro ⟨coming, past, asked⟩ (rfl : asked = none)
    cases coming with
    | nil =>
      right
      refine ⟨c, rfl, rfl, rfl, fun t => ?_⟩
      rw [hc]
      exact ⟨rfl, rfl⟩
    | cons t rest => left; exact ⟨rfl, fun ts => rfl⟩

/-- A loop over `write`. -/
theorem loop_turnwise {W : Type} {inn : W → Turns whole T} {ext : List T → W → W}
    {write : Bytes → Style → Act W IoError Nat} (st : Style)
    (h : ∀ b, Turnwise inn ext (write b st)) (fuel : Nat) (b : Bytes) :
    Turnwise inn ext (defaultWriteAll write fuel b st) := by
  induction fuel generalizing b with
  | zero =>
    unfold defaultWriteAll
    by_cases hb : b.isEmpty = true
    · simp only [hb, if_true]; exact .ret _
    · simp only [hb]; exact .ret _
  | succ fuel ih =>
    by_cases hb : b.isEmpty = true
    · refine (Turnwise.ret (.ok ())).of_eq fun w => ?_
      unfold defaultWriteAll
      rw [if_pos hb]
    · refine (Turnwise.andThen (h b) (f := fun r => match r with
        | .ok 0 => fun w => (.err ⟨.WriteZero, "failed to write whole buffer"⟩, w)
        | .ok (n + 1) => fun w =>
          if n + 1 ≤ b.length then defaultWriteAll write fuel (b.drop (n + 1)) st w else (.panic, w)
        | .err e => fun w => if e.kind = .Interrupted then defaultWriteAll write fuel b st w else (.err e, w)
        | .panic => fun w => (.panic, w)
        | .diverge => fun w => (.diverge, w)) ?_ (fun _ => rfl)).of_eq fun w => ?_
      · intro r
        rcases r with (_ | n) | e | _ | _
        · exact .ret _
        · by_cases hn : n + 1 ≤ b.length
          · simp only [hn, if_true]; exact ih _
          · simp only [hn, if_false]; exact .ret _
        · by_cases hn : e.kind = .Interrupted
          · simp only [hn, if_true]; exact ih _
          · simp only [hn, if_false]; exact .ret _
        · exact .ret _
        · exact .ret _
      · conv => lhs; unfold defaultWriteAll
        rw [if_neg hb]
        rcases write b st w with ⟨r, w'⟩
        rcases r with (_ | n) | e | _ | _
        · rfl
        · rfl
        · rfl
        · rfl
        · rfl

theorem Spec.Turns.write_turnwise (b : Bytes) :
    Turnwise (whole := whole) (T := T) id (fun ts s => s.more ts) (StdIoWrite.write b) :=
  call_turnwise _ _ (fun _ => rfl)

theorem Spec.Turns.writeAll_turnwise (fuel : Nat) (b : Bytes) :
    Turnwise (whole := whole) (T := T) id (fun ts s => s.more ts) (StdIoWrite.writeAll fuel b) := by
  cases whole with
  | true => exact call_turnwise (.writeAll fuel b) _ (fun _ => rfl)
  | false =>
    refine (loop_turnwise (inn := id) (ext := fun ts s => s.more ts) Style.default
      (write := fun b _ => StdIoWrite.write b) (fun b => write_turnwise b) fuel b).of_eq fun s => ?_
    exact stdWriteAll_eq _ fuel b Style.default s

/-! ### `io::Plain` -/

section
variable {fuel : Nat}

theorem chunks_turnwise {W : Type} [Write W] {inn : W → Turns whole T} {ext : List T → W → W}
    (h : ∀ s st, Turnwise inn ext (Write.writeStr (W := W) s st)) (chs : List Chunk) :
    Turnwise inn ext (writeChunks (W := W) chs) := by
  induction chs with
  | nil => exact .ret _
  | cons ch chs ih => exact .bind (h _ _) (fun _ => ih)

/-- Formatting into any io writer. -/
theorem writeFmt_turnwise {W : Type} [IoWrite W] {inn : W → Turns whole T} {ext : List T → W → W}
    (h : ∀ b st, Turnwise inn ext (IoWrite.writeAll (W := W) b st)) (args : Arguments) (hp : Propagates args.f) :
    Turnwise inn ext (IoWrite.writeFmt (W := W) args) := by
  have hw : ∀ s st, Turnwise (fun w : ErrorTrap W => inn w.inner) (fun ts w => { w with inner := ext ts w.inner })
      (Write.writeStr (W := ErrorTrap W) s st) := by
    intro s st
    refine ((h (utf8 s) st).lift (fun w : ErrorTrap W => w.inner) (fun r w v => match r with
      | .ok () => (.ok (), { v with inner := w })
      | .err err => (.err (), { v with inner := w, error := some err })
      | .panic => (.panic, { v with inner := w })
      | .diverge => (.diverge, { v with inner := w })) (fun _ => rfl) (fun _ _ => rfl) ?_ ?_ (fun _ _ => rfl)).of_eq
      fun w => ?_
    · intro r w v; cases r <;> rfl
    · intro ts r w v; cases r <;> rfl
    · simp only [Write.writeStr]
      rcases IoWrite.writeAll (utf8 s) st w.inner with ⟨r, w'⟩
      cases r <;> rfl
  refine ((chunks_turnwise hw (denote args).1).lift (fun w : W => ErrorTrap.new w)
    (fun r w _ => match r with
      | .ok () => (match (denote args).2 with
        | .ok () => .ok ()
        | .err () => .err w.takeError
        | .panic => .panic
        | .diverge => .diverge, w.inner)
      | .err () => (.err w.takeError, w.inner)
      | .panic => (.panic, w.inner)
      | .diverge => (.diverge, w.inner)) (fun _ => rfl) (fun _ _ => rfl) ?_ ?_ (fun _ _ => rfl)).of_eq fun w => ?_
  · intro r w v; cases r <;> rfl
  · intro ts r w v; cases r <;> rfl
  · unfold IoWrite.writeFmt
    rw [Write.writeFmt_propagates args hp]
    rcases writeChunks (denote args).1 (ErrorTrap.new w) with ⟨r, w'⟩
    cases r with
    | ok u => simp only [afterChunks]; rcases (denote args).2 with _ | _ | _ | _ <;> rfl
    | err e => rfl
    | panic => rfl
    | diverge => rfl

theorem plain_turnwise (args : Arguments) (hp : Propagates args.f) :
    Turnwise (whole := whole) (T := T) IoPlain.inner (fun ts w => { w with inner := w.inner.more ts })
      (IoWrite.writeFmt (W := IoPlain fuel (Turns whole T)) args) := by
  refine writeFmt_turnwise (fun b st => ?_) args hp
  refine ((Turns.writeAll_turnwise fuel b).lift (fun w : IoPlain fuel (Turns whole T) => w.inner)
    (fun r t v => (r, { v with inner := t })) (fun _ => rfl) (fun _ _ => rfl) (fun _ _ _ => rfl)
    (fun _ _ _ _ => rfl) (fun _ _ => rfl)).of_eq fun _ => rfl

/-! ### `io::Ansi` -/

/-- The stream in an `io::Ansi`, with more turns to come. -/
abbrev ansiMore (ts : List T) (w : IoAnsi fuel (Turns whole T)) : IoAnsi fuel (Turns whole T) :=
  { w with inner := w.inner.more ts }

theorem IoAnsi.onInner_turnwise {A : Type} {x : Act (Turns whole T) IoError A}
    (hx : Turnwise id (fun ts s => s.more ts) x) :
    Turnwise IoAnsi.inner ansiMore (IoAnsi.onInner (fuel := fuel) x) :=
  (hx.lift (fun w : IoAnsi fuel (Turns whole T) => w.inner)
    (fun r t v => (r, { v with inner := t })) (fun _ => rfl) (fun _ _ => rfl) (fun _ _ _ => rfl)
    (fun _ _ _ _ => rfl) (fun _ _ => rfl)).of_eq fun _ => rfl

theorem IoAnsi.put_turnwise (s : Str) :
    Turnwise IoAnsi.inner ansiMore (IoAnsi.put (fuel := fuel) (T := Turns whole T) s) :=
  onInner_turnwise (Turns.writeAll_turnwise fuel (utf8 s))

theorem IoAnsi.putRest_turnwise (l : List Str) :
    Turnwise IoAnsi.inner ansiMore (IoAnsi.putRest (fuel := fuel) (T := Turns whole T) l) := by
  induction l with
  | nil => exact .ret _
  | cons s l ih => exact .bind (put_turnwise _) fun _ => .bind (put_turnwise _) fun _ => ih

theorem IoAnsi.switchStyle_turnwise (cur st : Style) :
    Turnwise IoAnsi.inner ansiMore (IoAnsi.switchStyle (fuel := fuel) (T := Turns whole T) cur st) := by
  unfold switchStyle
  split
  · exact put_turnwise _
  · rcases segments (st.diffFrom cur) with _ | ⟨s, l⟩
    · exact .ret _
    · exact .bind (put_turnwise _) fun _ => .bind (put_turnwise _) fun _ =>
        .bind (putRest_turnwise _) fun _ => put_turnwise _

theorem IoAnsi.write_turnwise (b : Bytes) (st : Style) :
    Turnwise IoAnsi.inner ansiMore (IoAnsi.write (fuel := fuel) (T := Turns whole T) b st) := by
  refine .bind (.quiet _ (fun _ => rfl) fun _ _ => rfl) fun cur => ?_
  refine .bind (switchStyle_turnwise _ _) fun _ => ?_
  refine .bind (.quiet _ (fun _ => rfl) fun _ _ => rfl) fun _ => ?_
  exact onInner_turnwise (Turns.write_turnwise b)

theorem ansi_turnwise (args : Arguments) (hp : Propagates args.f) :
    Turnwise IoAnsi.inner ansiMore
      (IoWrite.writeFmt (W := IoAnsi fuel (Turns whole T)) args >>= fun _ => IoAnsi.finish) := by
  refine .bind (writeFmt_turnwise (fun b st => ?_) args hp) fun _ => ?_
  · exact loop_turnwise st (fun b => IoAnsi.write_turnwise b st) fuel b
  · refine .bind (.quiet _ (fun _ => rfl) fun _ _ => rfl) fun cur => ?_
    split
    · exact IoAnsi.put_turnwise _
    · exact .ret _

/-- A thread at work. -/
theorem Spec.Job.turnwise (job : Job) (hp : job.Propagates) :
    Turnwise (whole := whole) (T := T) id (fun ts s => s.more ts) (job.run fuel) := by
  cases job with
  | ansi args =>
    exact ((ansi_turnwise (fuel := fuel) args hp).lift (fun s => IoAnsi.new s) (fun r w _ => (r, w.inner))
      (fun _ => rfl) (fun _ _ => rfl) (fun _ _ _ => rfl) (fun _ _ _ _ => rfl)
      (fun _ _ => rfl)).of_eq fun _ => rfl
  | plain args =>
    exact ((plain_turnwise (fuel := fuel) args hp).lift (fun s => IoPlain.new s) (fun r w _ => (r, w.inner))
      (fun _ => rfl) (fun _ _ => rfl) (fun _ _ _ => rfl) (fun _ _ _ _ => rfl)
      (fun _ _ => rfl)).of_eq fun _ => rfl
  | flush => exact Turns.call_turnwise .flush StdIoWrite.flush (fun _ => rfl)

/-- One job after the other. -/
theorem Spec.Job.runAll_append (jobs jobs' : List Job) (t : T) :
    Job.runAll fuel (jobs ++ jobs') t = (Job.runAll fuel jobs >>= fun _ => Job.runAll fuel jobs') t := by
  induction jobs generalizing t with
  | nil => rfl
  | cons job jobs ih =>
    simp only [List.cons_append, runAll]
    simp only [Act.bind_apply]
    rcases job.run fuel t with ⟨r, t'⟩
    cases r with
    | ok u => exact (ih t').trans (Act.bind_apply _ _ _)
    | err e => rfl
    | panic => rfl
    | diverge => rfl

/-- A thread with all its jobs. -/
theorem Spec.Job.all_turnwise (jobs : List Job) (hp : ∀ job ∈ jobs, job.Propagates) :
    Turnwise (whole := whole) (T := T) id (fun ts s => s.more ts) (Job.runAll fuel jobs) := by
  induction jobs with
  | nil => exact .ret (.ok ())
  | cons job jobs ih =>
    exact Turnwise.bind (job.turnwise (hp job (by simp))) fun _ => ih fun j hj => hp j (by simp [hj])

end

/-! ### What a thread has written -/

/-- The bytes a call has added. -/
def added (k : IoSink T) (x : T × T) : Bytes := (k.delivered x.2).drop (k.delivered x.1).length

theorem added_of (k : IoSink T) {t t' : T} {p : Bytes} (h : k.delivered t' = k.delivered t ++ p) :
    added k (t, t') = p := by simp [added, h]

theorem call_contract (k : IoSink T) :
    WriteContract (StdIoWrite.write (T := Turns whole T)) id (fun s => s.past.flatMap (added k)) := by
  constructor
  · rintro buf ⟨coming, past, asked⟩ w' n h
    cases coming with
    | nil => simp [StdIoWrite.write, Turns.call] at h
    | cons t rest =>
      simp only [StdIoWrite.write, Turns.call] at h
      obtain ⟨h1, rfl⟩ := Prod.mk.inj h
      obtain ⟨g1, g2⟩ := k.contract.ok buf t _ n (Prod.ext h1 rfl)
      exact ⟨g1, by simpa using added_of k g2⟩
  · rintro buf ⟨coming, past, asked⟩ w' e h
    cases coming with
    | nil => simp [StdIoWrite.write, Turns.call] at h
    | cons t rest =>
      simp only [StdIoWrite.write, Turns.call] at h
      obtain ⟨h1, rfl⟩ := Prod.mk.inj h
      have g := k.contract.err buf t _ e (Prod.ext h1 rfl)
      have g : k.delivered (StdIoWrite.write buf t).2 = k.delivered t ++ [] := by simpa using g
      simpa using added_of k g
  · rintro buf ⟨coming, past, asked⟩ w' r h hr
    cases coming with
    | nil =>
      simp only [StdIoWrite.write, Turns.call] at h
      obtain ⟨-, rfl⟩ := Prod.mk.inj h
      exact ⟨[], by simp⟩
    | cons t rest =>
      simp only [StdIoWrite.write, Turns.call] at h
      obtain ⟨h1, rfl⟩ := Prod.mk.inj h
      obtain ⟨p, g1, g2⟩ := k.contract.other buf t _ r (Prod.ext h1 rfl) hr
      exact ⟨p, g1, by simpa using added_of k (by simpa using g2)⟩

theorem call_all (k : IoSink T) :
    WriteAllContract (StdIoWrite.writeAll (T := Turns whole T)) (fun s => s.past.flatMap (added k)) := by
  cases whole with
  | false => exact .default (call_contract k)
  | true =>
    constructor
    · rintro fuel buf ⟨coming, past, asked⟩ w' h
      cases coming with
      | nil => simp [StdIoWrite.writeAll, Turns.call] at h
      | cons t rest =>
        simp only [StdIoWrite.writeAll, Turns.call, if_true] at h
        obtain ⟨h1, rfl⟩ := Prod.mk.inj h
        have g := k.all.ok fuel buf t _ (Prod.ext h1 rfl)
        simpa using added_of k g
    · rintro fuel buf ⟨coming, past, asked⟩ w' e h
      cases coming with
      | nil => simp [StdIoWrite.writeAll, Turns.call] at h
      | cons t rest =>
        simp only [StdIoWrite.writeAll, Turns.call, if_true] at h
        obtain ⟨h1, rfl⟩ := Prod.mk.inj h
        obtain ⟨g1, p, g2, g3, g4⟩ := k.all.err fuel buf t _ e (Prod.ext h1 rfl)
        exact ⟨g1, p, g2, g3, by simpa using added_of k g4⟩
    · rintro fuel buf ⟨coming, past, asked⟩ w' r h hr
      cases coming with
      | nil =>
        simp only [StdIoWrite.writeAll, Turns.call, if_true] at h
        obtain ⟨-, rfl⟩ := Prod.mk.inj h
        exact ⟨[], by simp⟩
      | cons t rest =>
        simp only [StdIoWrite.writeAll, Turns.call, if_true] at h
        obtain ⟨h1, rfl⟩ := Prod.mk.inj h
        obtain ⟨p, g1, g2⟩ := k.all.other fuel buf t _ r (Prod.ext h1 rfl) hr
        exact ⟨p, g1, by simpa using added_of k g2⟩

/-- The stream of a thread obeys the contracts: what counts is what its own calls have added. -/
def turnsSink (k : IoSink T) : IoSink (Turns whole T) where
  delivered s := s.past.flatMap (added k)
  contract := call_contract k
  all := call_all k

/-- A call only adds. -/
theorem perform_adds (k : IoSink T) (hk : FlushKeeps k) (c : StreamCall) (t : T) :
    k.delivered (c.perform t) = k.delivered t ++ added k (t, c.perform t) := by
  suffices h : ∃ p, k.delivered (c.perform t) = k.delivered t ++ p by
    obtain ⟨p, h⟩ := h
    rw [added_of k h]; exact h
  cases c with
  | write b =>
    rcases h : StdIoWrite.write b t with ⟨r, t'⟩
    simp only [StreamCall.perform, h]
    cases r with
    | ok n => obtain ⟨-, h⟩ := k.contract.ok _ _ _ _ h; exact ⟨_, h⟩
    | err e => exact ⟨[], by simpa using k.contract.err _ _ _ _ h⟩
    | panic => obtain ⟨p, -, h⟩ := k.contract.other _ _ _ _ h (Or.inl rfl); exact ⟨_, h⟩
    | diverge => obtain ⟨p, -, h⟩ := k.contract.other _ _ _ _ h (Or.inr rfl); exact ⟨_, h⟩
  | writeAll fuel b =>
    rcases h : StdIoWrite.writeAll fuel b t with ⟨r, t'⟩
    simp only [StreamCall.perform, h]
    cases r with
    | ok n => exact ⟨_, k.all.ok _ _ _ _ h⟩
    | err e => obtain ⟨-, p, -, -, h⟩ := k.all.err _ _ _ _ _ h; exact ⟨_, h⟩
    | panic => obtain ⟨p, -, h⟩ := k.all.other _ _ _ _ _ h (Or.inl rfl); exact ⟨_, h⟩
    | diverge => obtain ⟨p, -, h⟩ := k.all.other _ _ _ _ _ h (Or.inr rfl); exact ⟨_, h⟩
  | flush => exact ⟨[], by rw [List.append_nil]; exact hk t _ _ rfl⟩

/-! ### The world -/

namespace Spec.World
variable {fuel : Nat} {jobs : Nat → List Job}

/-- What a turn does: nothing, or one call of the thread, which is the last of its calls now. -/
theorem turn_cases (hp : ∀ i, ∀ job ∈ jobs i, job.Propagates) (w : World T) (i : Nat) :
    turn whole fuel jobs w i = w ∨
    ∃ c, (thread whole fuel jobs i w).2.asked = some c ∧ (turn whole fuel jobs w i).device = c.perform w.device ∧
      (thread whole fuel jobs i (turn whole fuel jobs w i)).2.past =
        (thread whole fuel jobs i w).2.past ++ [(w.device, c.perform w.device)] ∧
      ∀ j, j ≠ i → thread whole fuel jobs j (turn whole fuel jobs w i) = thread whole fuel jobs j w := by
  unfold turn
  rcases h : (thread whole fuel jobs i w).2.asked with _ | c
  · left; rfl
  · right
    refine ⟨c, rfl, rfl, ?_, fun j hj => ?_⟩
    · rcases (Job.all_turnwise (jobs i) (whole := whole) (T := T) (fuel := fuel) (hp i)).ends ⟨w.had i, [], none⟩ rfl with
        ⟨h1, -⟩ | ⟨c', h1, -, -, h4⟩
      · exact absurd (h.symm.trans h1) (by simp)
      · obtain rfl : c = c' := by simpa using h.symm.trans h1
        have e := (h4 w.device).1
        simp only [thread, if_true]
        exact e
    · simp only [thread, hj, if_false]

end Spec.World

end Stylish
