import Verif.Lemmas.Shared
/-
A thread alone with the stream: turn by turn, it does what it does when it runs straight on the stream.
-/

namespace Stylish

open Spec

variable {whole : Bool} {T : Type} [StdIoWrite T]

/-- The states before and after successive calls, each of which finds the stream as the one before has left it. -/
def Linked (t : T) : List (T × T) → T → Prop
  | [], t' => t' = t
  | x :: q, t' => x.1 = t ∧ Linked x.2 q t'

omit [StdIoWrite T] in
theorem Linked.append {t t1 t2 : T} {q q' : List (T × T)} (h : Linked t q t1) (h' : Linked t1 q' t2) :
    Linked t (q ++ q') t2 := by
  induction q generalizing t with
  | nil => obtain rfl : t1 = t := h; exact h'
  | cons x q ih => exact ⟨h.1, ih h.2⟩

/-- `x`, at work on the stream of a thread, does with the right turns what `y` does on the stream itself. `inn` is the
stream in the state of `x`, `ext` gives it further turns, and `dn` puts the stream itself in its place. -/
def Follows {V W E A : Type} (inn : V → Turns whole T) (ext : List T → V → V) (dn : T → V → W) (x : Act V E A)
    (y : Act W E A) : Prop :=
  ∀ v t, (inn v).coming = [] → (inn v).asked = none → ∃ q t' v', Linked t q t' ∧
    x (ext (q.map Prod.fst) v) = ((y (dn t v)).1, v') ∧ inn v' = ⟨[], (inn v).past ++ q, none⟩ ∧
    (y (dn t v)).2 = dn t' v'

/-- What is needed of the state of an action on the stream of a thread. -/
structure Extends {V : Type} (inn : V → Turns whole T) (ext : List T → V → V) : Prop where
  inn : ∀ ts v, inn (ext ts v) = (inn v).more ts
  two : ∀ ts ts' v, ext ts' (ext ts v) = ext (ts ++ ts') v
  none : ∀ v, ext [] v = v

namespace Follows
variable {V W V' W' E E' A B : Type} {inn : V → Turns whole T} {ext : List T → V → V} {dn : T → V → W}

theorem andThen (he : Extends inn ext) {x : Act V E A} {y : Act W E A} (hx : Turnwise inn ext x)
    (h : Follows inn ext dn x y) {f : Res E A → Act V E' B} {g : Res E A → Act W E' B}
    (hfg : ∀ r, Follows inn ext dn (f r) (g r)) :
    Follows inn ext dn (fun v => f (x v).1 (x v).2) (fun w => g (y w).1 (y w).2) := by
  intro v t hc ha
  obtain ⟨q1, t1, v1, h1, h2, h3, h4⟩ := h v t hc ha
  obtain ⟨q2, t2, v2, g1, g2, g3, g4⟩ := hfg (y (dn t v)).1 v1 t1 (by rw [h3]) (by rw [h3])
  refine ⟨q1 ++ q2, t2, v2, h1.append g1, ?_, by rw [g3, h3]; simp, by simp only [h4]; exact g4⟩
  have e : x (ext ((q1 ++ q2).map Prod.fst) v) = ((y (dn t v)).1, ext (q2.map Prod.fst) v1) := by
    rcases hx.ends (ext (q1.map Prod.fst) v) (by rw [he.inn]; exact ha) with ⟨-, k⟩ | ⟨c, k, -⟩
    · rw [List.map_append, ← he.two, k, h2]
    · rw [h2, h3] at k; exact absurd k (by simp)
  simp only [e, h4]
  exact g2

omit [StdIoWrite T] in
theorem lift {x : Act V E A} {y : Act W E A} (h : Follows inn ext dn x y) (get : V' → V) (get' : W' → W)
    (out : Res E A → V → V' → Res E' B × V') (out' : Res E A → W → W' → Res E' B × W')
    {inn' : V' → Turns whole T} {ext' : List T → V' → V'} {dn' : T → V' → W'}
    (hget : ∀ v, inn (get v) = inn' v) (hext : ∀ ts v, get (ext' ts v) = ext ts (get v))
    (hdn : ∀ t v, get' (dn' t v) = dn t (get v)) (hout : ∀ r w v, inn' (out r w v).2 = inn w)
    (hout' : ∀ ts t t' r w v, out' r (dn t' w) (dn' t v) =
      ((out r w (ext' ts v)).1, dn' t' (out r w (ext' ts v)).2)) :
    Follows inn' ext' dn' (fun v => out (x (get v)).1 (x (get v)).2 v)
      (fun w => out' (y (get' w)).1 (y (get' w)).2 w) := by
  intro v t hc ha
  rw [← hget] at hc ha
  obtain ⟨q, t', v', h1, h2, h3, h4⟩ := h (get v) t hc ha
  refine ⟨q, t', (out (y (dn t (get v))).1 v' (ext' (q.map Prod.fst) v)).2, h1, ?_, ?_, ?_⟩
  · simp only [hext, hdn, h2]
    rw [h4, hout' (q.map Prod.fst) t t' _ v' v]
  · rw [hout, h3, hget]
  · simp only [hdn]
    rw [h4, hout' (q.map Prod.fst) t t' _ v' v]

omit [StdIoWrite T] in
theorem of_eq {x x' : Act V E A} {y y' : Act W E A} (h : Follows inn ext dn x y) (hx : ∀ v, x' v = x v)
    (hy : ∀ w, y' w = y w) : Follows inn ext dn x' y' := by
  have e : x' = x := funext hx
  have e' : y' = y := funext hy
  rw [e, e']; exact h

omit [StdIoWrite T] in
/-- Actions that do not touch the stream. -/
theorem quiet (he : Extends inn ext) (x : Act V E A) (y : Act W E A) (hin : ∀ v, inn (x v).2 = inn v)
    (h : ∀ t v, y (dn t v) = ((x v).1, dn t (x v).2)) : Follows inn ext dn x y := by
  rintro v t hc ha
  refine ⟨[], t, (x v).2, rfl, ?_, ?_, ?_⟩
  · rw [h, List.map_nil, he.none]
  · rw [hin, List.append_nil, ← hc, ← ha]
  · rw [h]

omit [StdIoWrite T] in
theorem ret (he : Extends inn ext) (r : Res E A) : Follows inn ext dn (fun v => (r, v)) (fun w => (r, w)) :=
  quiet he _ _ (fun _ => rfl) (fun _ _ => rfl)

theorem bind (he : Extends inn ext) {x : Act V E A} {y : Act W E A} (hx : Turnwise inn ext x)
    (h : Follows inn ext dn x y) {f : A → Act V E B} {g : A → Act W E B} (hfg : ∀ a, Follows inn ext dn (f a) (g a)) :
    Follows inn ext dn (x >>= f) (y >>= g) := by
  refine (andThen he hx h
    (f := fun r => match r with
      | .ok a => f a
      | .err e => fun w => (.err e, w)
      | .panic => fun w => (.panic, w)
      | .diverge => fun w => (.diverge, w))
    (g := fun r => match r with
      | .ok a => g a
      | .err e => fun w => (.err e, w)
      | .panic => fun w => (.panic, w)
      | .diverge => fun w => (.diverge, w)) ?_).of_eq ?_ ?_
  · intro r
    cases r
    · exact hfg _
    · exact ret he _
    · exact ret he _
    · exact ret he _
  · intro v
    rw [Act.bind_apply]
    rcases x v with ⟨r, v'⟩
    cases r <;> rfl
  · intro w
    rw [Act.bind_apply]
    rcases y w with ⟨r, w'⟩
    cases r <;> rfl

end Follows

/-! ### The stream itself -/

omit [StdIoWrite T] in
theorem turns_extends : Extends (whole := whole) (T := T) id (fun ts s => s.more ts) where
  inn _ _ := rfl
  two ts ts' s := by simp [Turns.more]
  none s := by simp [Turns.more]

omit [StdIoWrite T] in
theorem Spec.Turns.call_follows {A : Type} (c : StreamCall) (x : Act T IoError A) :
    Follows (whole := whole) (T := T) id (fun ts s => s.more ts) (fun t _ => t) (Turns.call c x) x := by
  rintro ⟨coming, past, asked⟩ t (rfl : coming = []) (rfl : asked = none)
  exact ⟨[(t, (x t).2)], (x t).2, ⟨[], past ++ [(t, (x t).2)], none⟩, ⟨rfl, rfl⟩, rfl, rfl, rfl⟩

theorem loop_follows {V W : Type} {inn : V → Turns whole T} {ext : List T → V → V} {dn : T → V → W}
    (he : Extends inn ext) {write : Bytes → Style → Act V IoError Nat} {write' : Bytes → Style → Act W IoError Nat}
    (st : Style) (h : ∀ b, Turnwise inn ext (write b st)) (hf : ∀ b, Follows inn ext dn (write b st) (write' b st))
    (fuel : Nat) (b : Bytes) :
    Follows inn ext dn (defaultWriteAll write fuel b st) (defaultWriteAll write' fuel b st) := by
  induction fuel generalizing b with
  | zero =>
    unfold defaultWriteAll
    by_cases hb : b.isEmpty = true
    · simp only [hb, if_true]; exact .ret he _
    · simp only [hb]; exact .ret he _
  | succ fuel ih =>
    by_cases hb : b.isEmpty = true
    · refine (Follows.ret he (.ok ())).of_eq (fun w => ?_) (fun w => ?_) <;>
      · unfold defaultWriteAll
        rw [if_pos hb]
    · refine (Follows.andThen he (h b) (hf b)
        (f := fun r => match r with
          | .ok 0 => fun w => (.err ⟨.WriteZero, "failed to write whole buffer"⟩, w)
          | .ok (n + 1) => fun w =>
            if n + 1 ≤ b.length then defaultWriteAll write fuel (b.drop (n + 1)) st w else (.panic, w)
          | .err e => fun w => if e.kind = .Interrupted then defaultWriteAll write fuel b st w else (.err e, w)
          | .panic => fun w => (.panic, w)
          | .diverge => fun w => (.diverge, w))
        (g := fun r => match r with
          | .ok 0 => fun w => (.err ⟨.WriteZero, "failed to write whole buffer"⟩, w)
          | .ok (n + 1) => fun w =>
            if n + 1 ≤ b.length then defaultWriteAll write' fuel (b.drop (n + 1)) st w else (.panic, w)
          | .err e => fun w => if e.kind = .Interrupted then defaultWriteAll write' fuel b st w else (.err e, w)
          | .panic => fun w => (.panic, w)
          | .diverge => fun w => (.diverge, w)) ?_).of_eq (fun w => ?_) (fun w => ?_)
      · intro r
        rcases r with (_ | n) | e | _ | _
        · exact .ret he _
        · by_cases hn : n + 1 ≤ b.length
          · simp only [hn, if_true]; exact ih _
          · simp only [hn, if_false]; exact .ret he _
        · by_cases hn : e.kind = .Interrupted
          · simp only [hn, if_true]; exact ih _
          · simp only [hn, if_false]; exact .ret he _
        · exact .ret he _
        · exact .ret he _
      · conv => lhs; unfold defaultWriteAll
        rw [if_neg hb]
        rcases write b st w with ⟨r, w'⟩
        rcases r with (_ | n) | e | _ | _ <;> rfl
      · conv => lhs; unfold defaultWriteAll
        rw [if_neg hb]
        rcases write' b st w with ⟨r, w'⟩
        rcases r with (_ | n) | e | _ | _ <;> rfl

theorem Spec.Turns.write_follows (b : Bytes) :
    Follows (whole := whole) (T := T) id (fun ts s => s.more ts) (fun t _ => t) (StdIoWrite.write b)
      (StdIoWrite.write b) :=
  call_follows _ _

/-- How the thread calls `write_all` is how the stream itself does it. -/
def Fits (whole : Bool) (T : Type) [StdIoWrite T] : Prop :=
  whole = true ∨ ∀ fuel b (t : T), StdIoWrite.writeAll fuel b t = stdWriteAll StdIoWrite.write fuel b t

theorem Spec.Turns.writeAll_follows (hw : Fits whole T) (fuel : Nat) (b : Bytes) :
    Follows (whole := whole) (T := T) id (fun ts s => s.more ts) (fun t _ => t) (StdIoWrite.writeAll fuel b)
      (StdIoWrite.writeAll fuel b) := by
  cases whole with
  | true => exact call_follows (.writeAll fuel b) _
  | false =>
    have hw := hw.resolve_left (by simp)
    refine (loop_follows turns_extends Style.default (write := fun b _ => StdIoWrite.write b)
      (write' := fun b _ => StdIoWrite.write b) (dn := fun t _ => t) (fun b => write_turnwise b)
      (fun b => write_follows b) fuel b).of_eq (fun s => ?_) (fun t => ?_)
    · exact stdWriteAll_eq _ fuel b Style.default s
    · rw [hw]; exact stdWriteAll_eq _ fuel b Style.default t

/-! ### The writers -/

theorem chunks_follows {V W : Type} [Write V] [Write W] {inn : V → Turns whole T} {ext : List T → V → V}
    {dn : T → V → W} (he : Extends inn ext) (h : ∀ s st, Turnwise inn ext (Write.writeStr (W := V) s st))
    (hf : ∀ s st, Follows inn ext dn (Write.writeStr (W := V) s st) (Write.writeStr (W := W) s st))
    (chs : List Chunk) : Follows inn ext dn (writeChunks (W := V) chs) (writeChunks (W := W) chs) := by
  induction chs with
  | nil => exact .ret he _
  | cons ch chs ih => exact .bind he (h _ _) (hf _ _) (fun _ => ih)

/-- The `io::Write` of a trap around a writer on the stream of a thread. -/
theorem trap_turnwise {W : Type} [IoWrite W] {inn : W → Turns whole T} {ext : List T → W → W}
    (h : ∀ b st, Turnwise inn ext (IoWrite.writeAll (W := W) b st)) (s : Str) (st : Style) :
    Turnwise (fun w : ErrorTrap W => inn w.inner) (fun ts w => { w with inner := ext ts w.inner })
      (Write.writeStr (W := ErrorTrap W) s st) := by
  refine ((h (utf8 s) st).lift (fun w : ErrorTrap W => w.inner) (fun r w v => match r with
    | .ok () => (.ok (), { v with inner := w })
    | .err err => (.err (), { v with inner := w, error := some err })
    | .panic => (.panic, { v with inner := w })
    | .diverge => (.diverge, { v with inner := w })) (fun _ => rfl) (fun _ _ => rfl) ?_ ?_ (fun _ _ => rfl)).of_eq
    fun w => ?_
  · intro r w v; cases r <;> rfl
  · intro ts r w v; cases r <;> rfl
  · simp only [Write.writeStr]
    rcases IoWrite.writeAll (utf8 s) st w.inner with ⟨r, w'⟩
    cases r <;> rfl

omit [StdIoWrite T] in
theorem trap_follows {V W : Type} [IoWrite V] [IoWrite W] {inn : V → Turns whole T} {ext : List T → V → V}
    {dn : T → V → W} (hf : ∀ b st, Follows inn ext dn (IoWrite.writeAll (W := V) b st)
      (IoWrite.writeAll (W := W) b st)) (s : Str) (st : Style) :
    Follows (fun w : ErrorTrap V => inn w.inner) (fun ts w => { w with inner := ext ts w.inner })
      (fun t w => (⟨dn t w.inner, w.error⟩ : ErrorTrap W))
      (Write.writeStr (W := ErrorTrap V) s st) (Write.writeStr (W := ErrorTrap W) s st) := by
  refine ((hf (utf8 s) st).lift (fun w : ErrorTrap V => w.inner) (fun w : ErrorTrap W => w.inner)
    (fun r w v => match r with
      | .ok () => (.ok (), { v with inner := w })
      | .err err => (.err (), { v with inner := w, error := some err })
      | .panic => (.panic, { v with inner := w })
      | .diverge => (.diverge, { v with inner := w }))
    (fun r w v => match r with
      | .ok () => (.ok (), { v with inner := w })
      | .err err => (.err (), { v with inner := w, error := some err })
      | .panic => (.panic, { v with inner := w })
      | .diverge => (.diverge, { v with inner := w })) (fun _ => rfl) (fun _ _ => rfl) (fun _ _ => rfl) ?_ ?_).of_eq
    (fun w => ?_) (fun w => ?_)
  · intro r w v; cases r <;> rfl
  · intro ts t t' r w v; cases r <;> rfl
  · simp only [Write.writeStr]
    rcases IoWrite.writeAll (utf8 s) st w.inner with ⟨r, w'⟩
    cases r <;> rfl
  · simp only [Write.writeStr]
    rcases IoWrite.writeAll (utf8 s) st w.inner with ⟨r, w'⟩
    cases r <;> rfl

/-- The end of `write_fmt`, when all was written. -/
def fmtEnd {U : Type} (o : Res FmtError Unit) (r : Res FmtError Unit) (w : ErrorTrap U) (_ : U) :
    Res IoError Unit × U :=
  match r with
  | .ok () => (match o with
    | .ok () => .ok ()
    | .err () => .err w.takeError
    | .panic => .panic
    | .diverge => .diverge, w.inner)
  | .err () => (.err w.takeError, w.inner)
  | .panic => (.panic, w.inner)
  | .diverge => (.diverge, w.inner)

theorem writeFmt_follows {V W : Type} [IoWrite V] [IoWrite W] {inn : V → Turns whole T} {ext : List T → V → V}
    {dn : T → V → W} (he : Extends inn ext) (h : ∀ b st, Turnwise inn ext (IoWrite.writeAll (W := V) b st))
    (hf : ∀ b st, Follows inn ext dn (IoWrite.writeAll (W := V) b st) (IoWrite.writeAll (W := W) b st))
    (args : Arguments) (hp : Propagates args.f) :
    Follows inn ext dn (IoWrite.writeFmt (W := V) args) (IoWrite.writeFmt (W := W) args) := by
  have key : ∀ {U : Type} [IoWrite U] (w : U), IoWrite.writeFmt args w = fmtEnd (denote args).2
      (writeChunks (denote args).1 (ErrorTrap.new w)).1 (writeChunks (denote args).1 (ErrorTrap.new w)).2 w := by
    intro U _ w
    unfold IoWrite.writeFmt
    rw [Write.writeFmt_propagates args hp]
    rcases writeChunks (denote args).1 (ErrorTrap.new w) with ⟨r, w'⟩
    cases r with
    | ok u => simp only [afterChunks]; rcases (denote args).2 with _ | _ | _ | _ <;> rfl
    | err e => rfl
    | panic => rfl
    | diverge => rfl
  have het : Extends (fun w : ErrorTrap V => inn w.inner) (fun ts w => { w with inner := ext ts w.inner }) :=
    ⟨fun ts w => he.inn ts w.inner, fun ts ts' w => by simp only [he.two], fun w => by simp only [he.none]⟩
  refine ((chunks_follows het (trap_turnwise h) (trap_follows hf) (denote args).1).lift
    (fun w : V => ErrorTrap.new w) (fun w : W => ErrorTrap.new w) (fmtEnd (denote args).2) (fmtEnd (denote args).2) (fun _ => rfl) (fun _ _ => rfl)
    (fun _ _ => rfl) ?_ ?_).of_eq key key
  · intro r w v; cases r <;> rfl
  · intro ts t t' r w v
    cases r with
    | ok u => rcases (denote args).2 with _ | _ | _ | _ <;> rfl
    | err e => rfl
    | panic => rfl
    | diverge => rfl

section
variable {fuel : Nat}

theorem plain_follows (hw : Fits whole T) (args : Arguments) (hp : Propagates args.f) :
    Follows (whole := whole) (T := T) IoPlain.inner (fun ts w => { w with inner := w.inner.more ts })
      (fun t _ => (⟨t⟩ : IoPlain fuel T)) (IoWrite.writeFmt (W := IoPlain fuel (Turns whole T)) args)
      (IoWrite.writeFmt (W := IoPlain fuel T) args) := by
  refine writeFmt_follows ⟨fun _ _ => rfl, fun ts ts' w => by simp [Turns.more], fun w => by simp [Turns.more]⟩
    (fun b st => ?_) (fun b st => ?_) args hp
  · exact ((Turns.writeAll_turnwise fuel b).lift (fun w : IoPlain fuel (Turns whole T) => w.inner)
      (fun r t v => (r, { v with inner := t })) (fun _ => rfl) (fun _ _ => rfl) (fun _ _ _ => rfl)
      (fun _ _ _ _ => rfl) (fun _ _ => rfl)).of_eq fun _ => rfl
  · exact ((Turns.writeAll_follows hw fuel b).lift (fun w : IoPlain fuel (Turns whole T) => w.inner)
      (fun w : IoPlain fuel T => w.inner) (fun r t v => (r, { v with inner := t }))
      (fun r t v => (r, { v with inner := t })) (fun _ => rfl) (fun _ _ => rfl) (fun _ _ => rfl) (fun _ _ _ => rfl)
      (fun _ _ _ _ _ _ => rfl)).of_eq (fun _ => rfl) (fun _ => rfl)

/-- The stream itself in the place of that of the thread. -/
abbrev ansiOn (t : T) (w : IoAnsi fuel (Turns whole T)) : IoAnsi fuel T := ⟨t, w.current⟩

omit [StdIoWrite T] in
theorem ansi_extends : Extends (whole := whole) (T := T) (IoAnsi.inner (fuel := fuel)) ansiMore :=
  ⟨fun _ _ => rfl, fun ts ts' w => by simp [ansiMore, Turns.more], fun w => by simp [ansiMore, Turns.more]⟩

namespace IoAnsi

omit [StdIoWrite T] in
theorem onInner_follows {A : Type} {x : Act (Turns whole T) IoError A} {y : Act T IoError A}
    (hx : Follows id (fun ts s => s.more ts) (fun t _ => t) x y) :
    Follows IoAnsi.inner ansiMore ansiOn (IoAnsi.onInner (fuel := fuel) x) (IoAnsi.onInner (fuel := fuel) y) :=
  (hx.lift (fun w : IoAnsi fuel (Turns whole T) => w.inner) (fun w : IoAnsi fuel T => w.inner)
    (fun r t v => (r, { v with inner := t })) (fun r t v => (r, { v with inner := t })) (fun _ => rfl)
    (fun _ _ => rfl) (fun _ _ => rfl) (fun _ _ _ => rfl) (fun _ _ _ _ _ _ => rfl)).of_eq (fun _ => rfl) (fun _ => rfl)

variable (hw : Fits whole T)
include hw

theorem put_follows (s : Str) :
    Follows IoAnsi.inner ansiMore ansiOn (put (fuel := fuel) (T := Turns whole T) s) (put (fuel := fuel) (T := T) s) :=
  onInner_follows (Turns.writeAll_follows hw fuel (utf8 s))

theorem putRest_follows (l : List Str) :
    Follows IoAnsi.inner ansiMore ansiOn (putRest (fuel := fuel) (T := Turns whole T) l)
      (putRest (fuel := fuel) (T := T) l) := by
  induction l with
  | nil => exact .ret ansi_extends _
  | cons s l ih =>
    exact .bind ansi_extends (put_turnwise _) (put_follows hw _) fun _ =>
      .bind ansi_extends (put_turnwise _) (put_follows hw _) fun _ => ih

theorem switchStyle_follows (cur st : Style) :
    Follows IoAnsi.inner ansiMore ansiOn (switchStyle (fuel := fuel) (T := Turns whole T) cur st)
      (switchStyle (fuel := fuel) (T := T) cur st) := by
  unfold switchStyle
  by_cases h : cur ≠ st ∧ st = Style.default
  · simp only [if_pos h]
    exact put_follows hw _
  · simp only [if_neg h]
    rcases segments (st.diffFrom cur) with _ | ⟨s, l⟩
    · exact .ret ansi_extends _
    · exact .bind ansi_extends (put_turnwise _) (put_follows hw _) fun _ =>
        .bind ansi_extends (put_turnwise _) (put_follows hw _) fun _ =>
        .bind ansi_extends (putRest_turnwise _) (putRest_follows hw _) fun _ => put_follows hw _

theorem write_follows (b : Bytes) (st : Style) :
    Follows IoAnsi.inner ansiMore ansiOn (write (fuel := fuel) (T := Turns whole T) b st)
      (write (fuel := fuel) (T := T) b st) := by
  refine .bind ansi_extends (.quiet _ (fun _ => rfl) fun _ _ => rfl)
    (.quiet ansi_extends _ _ (fun _ => rfl) fun _ _ => rfl) fun cur => ?_
  refine .bind ansi_extends (switchStyle_turnwise _ _) (switchStyle_follows hw _ _) fun _ => ?_
  refine .bind ansi_extends (.quiet _ (fun _ => rfl) fun _ _ => rfl)
    (.quiet ansi_extends _ _ (fun _ => rfl) fun _ _ => rfl) fun _ => ?_
  exact onInner_follows (Turns.write_follows b)

end IoAnsi

theorem ansi_follows (hw : Fits whole T) (args : Arguments) (hp : Propagates args.f) :
    Follows IoAnsi.inner ansiMore ansiOn
      (IoWrite.writeFmt (W := IoAnsi fuel (Turns whole T)) args >>= fun _ => IoAnsi.finish)
      (IoWrite.writeFmt (W := IoAnsi fuel T) args >>= fun _ => IoAnsi.finish) := by
  have hl : ∀ b st, Turnwise IoAnsi.inner ansiMore (IoWrite.writeAll (W := IoAnsi fuel (Turns whole T)) b st) :=
    fun b st => loop_turnwise st (fun b => IoAnsi.write_turnwise b st) fuel b
  refine .bind ansi_extends (writeFmt_turnwise hl args hp) (writeFmt_follows ansi_extends hl (fun b st => ?_) args hp)
    fun _ => ?_
  · exact loop_follows ansi_extends st (fun b => IoAnsi.write_turnwise b st) (fun b => IoAnsi.write_follows hw b st)
      fuel b
  · refine .bind ansi_extends (.quiet _ (fun _ => rfl) fun _ _ => rfl)
      (.quiet ansi_extends _ _ (fun _ => rfl) fun _ _ => rfl) fun cur => ?_
    by_cases h : cur ≠ Style.default
    · simp only [if_pos h]; exact IoAnsi.put_follows hw _
    · simp only [if_neg h]; exact .ret ansi_extends _

theorem Spec.Job.follows (hw : Fits whole T) (job : Job) (hp : job.Propagates) :
    Follows (whole := whole) (T := T) id (fun ts s => s.more ts) (fun t _ => t) (job.run fuel) (job.run fuel) := by
  cases job with
  | ansi args =>
    exact ((ansi_follows (fuel := fuel) hw args hp).lift (fun s => IoAnsi.new s) (fun t => IoAnsi.new t)
      (fun r w _ => (r, w.inner)) (fun r w _ => (r, w.inner)) (fun _ => rfl) (fun _ _ => rfl) (fun _ _ => rfl)
      (fun _ _ _ => rfl) (fun _ _ _ _ _ _ => rfl)).of_eq (fun _ => rfl) (fun _ => rfl)
  | plain args =>
    exact ((plain_follows (fuel := fuel) hw args hp).lift (fun s => IoPlain.new s) (fun t => IoPlain.new t)
      (fun r w _ => (r, w.inner)) (fun r w _ => (r, w.inner)) (fun _ => rfl) (fun _ _ => rfl) (fun _ _ => rfl)
      (fun _ _ _ => rfl) (fun _ _ _ _ _ _ => rfl)).of_eq (fun _ => rfl) (fun _ => rfl)

  | flush => exact Turns.call_follows .flush StdIoWrite.flush

theorem Spec.Job.all_follows (hw : Fits whole T) (jobs : List Job) (hp : ∀ job ∈ jobs, job.Propagates) :
    Follows (whole := whole) (T := T) id (fun ts s => s.more ts) (fun t _ => t) (Job.runAll fuel jobs)
      (Job.runAll fuel jobs) := by
  induction jobs with
  | nil => exact .ret turns_extends (.ok ())
  | cons job jobs ih =>
    exact .bind turns_extends (job.turnwise (hp job (by simp))) (job.follows hw (hp job (by simp))) fun _ =>
      ih fun j hj => hp j (by simp [hj])

end

/-! ### The world -/

section
variable {fuel : Nat} {jobs : List Job}

/-- With one more turn. -/
theorem one_more (hp : ∀ job ∈ jobs, job.Propagates) (ts : List T) (t : T) (c : StreamCall)
    (h : (Job.runAll fuel jobs ⟨ts, [], none⟩ : _ × Turns whole T).2.asked = some c) :
    (Job.runAll fuel jobs ⟨ts ++ [t], [], none⟩ : _ × Turns whole T).2.past =
      (Job.runAll fuel jobs ⟨ts, [], none⟩ : _ × Turns whole T).2.past ++ [(t, c.perform t)] ∧
    (Job.runAll fuel jobs ⟨ts, [], none⟩ : _ × Turns whole T).2.past.length = ts.length := by
  have hj := Job.all_turnwise jobs (whole := whole) (T := T) (fuel := fuel) hp
  rcases hj.ends ⟨ts, [], none⟩ rfl with ⟨h1, -⟩ | ⟨c', h1, -, h3, h4⟩
  · exact absurd (h.symm.trans h1) (by simp)
  · obtain rfl : c = c' := by simpa using h.symm.trans h1
    refine ⟨(h4 t).1, ?_⟩
    have g := (hj.grows ⟨ts, [], none⟩).2
    simp only [id] at g h3
    rw [h3] at g
    simpa using g

/-- More turns change nothing for a thread that has returned. -/
theorem no_more (hp : ∀ job ∈ jobs, job.Propagates) (ts us : List T)
    (h : (Job.runAll fuel jobs ⟨ts, [], none⟩ : _ × Turns whole T).2.asked = none) :
    (Job.runAll fuel jobs ⟨ts ++ us, [], none⟩ : _ × Turns whole T) =
      ((Job.runAll fuel jobs ⟨ts, [], none⟩ : _ × Turns whole T).1,
        (Job.runAll fuel jobs ⟨ts, [], none⟩ : _ × Turns whole T).2.more us) := by
  have hj := Job.all_turnwise jobs (whole := whole) (T := T) (fuel := fuel) hp
  rcases hj.ends ⟨ts, [], none⟩ rfl with ⟨-, h2⟩ | ⟨c, h1, -⟩
  · exact h2 us
  · exact absurd (h.symm.trans h1) (by simp)

/-- Calls made are made, whatever turns there are later. -/
theorem past_prefix (hp : ∀ job ∈ jobs, job.Propagates) (ts us : List T) :
    (Job.runAll fuel jobs ⟨ts, [], none⟩ : _ × Turns whole T).2.past <+:
      (Job.runAll fuel jobs ⟨ts ++ us, [], none⟩ : _ × Turns whole T).2.past := by
  induction us generalizing ts with
  | nil => simp
  | cons u us ih =>
    rcases h : (Job.runAll fuel jobs ⟨ts, [], none⟩ : _ × Turns whole T).2.asked with _ | c
    · rw [no_more hp ts (u :: us) h]
      exact List.prefix_rfl
    · have h1 := (one_more hp ts u c h).1
      have h2 := ih (ts ++ [u])
      rw [h1, List.append_assoc] at h2
      exact (List.prefix_append _ _).trans h2

/-- A thread that waits does so whatever it is to do later. -/
theorem waits (hp : ∀ job ∈ jobs, job.Propagates) (rest : List Job) (ts : List T) (c : StreamCall)
    (h : (Job.runAll fuel jobs ⟨ts, [], none⟩ : _ × Turns whole T).2.asked = some c) :
    (Job.runAll fuel (jobs ++ rest) ⟨ts, [], none⟩ : _ × Turns whole T) =
      Job.runAll fuel jobs ⟨ts, [], none⟩ := by
  rcases (Job.all_turnwise jobs (whole := whole) (T := T) (fuel := fuel) hp).ends ⟨ts, [], none⟩ rfl with
    ⟨h1, -⟩ | ⟨c', -, h2, -⟩
  · exact absurd (h.symm.trans h1) (by simp)
  · rw [Job.runAll_append, Act.bind_apply]
    rcases hx : (Job.runAll fuel jobs ⟨ts, [], none⟩ : _ × Turns whole T) with ⟨r, v⟩
    rw [hx] at h2
    obtain rfl : r = .diverge := h2
    rfl

end

omit [StdIoWrite T] in
theorem Linked.next {t t' d : T} {q rest : List (T × T)} {x : T × T} (h : Linked t (q ++ x :: rest) t')
    (hd : Linked t q d) : d = x.1 := by
  induction q generalizing t with
  | nil => obtain rfl : d = t := hd; exact h.1.symm
  | cons y q ih => exact ih h.2 hd.2

omit [StdIoWrite T] in
theorem Linked.unique {t d d' : T} {q : List (T × T)} (h : Linked t q d) (h' : Linked t q d') : d = d' := by
  induction q generalizing t with
  | nil => exact (Eq.trans h (Eq.symm h'))
  | cons y q ih => exact ih h.2 h'.2

namespace Spec.World
variable {fuel : Nat} {jobs : Nat → List Job}

theorem run_add (m n i : Nat) (w : World T) :
    run whole fuel jobs (List.replicate (m + n) i) w =
      run whole fuel jobs (List.replicate n i) (run whole fuel jobs (List.replicate m i) w) := by
  rw [← List.replicate_append_replicate, run, List.foldl_append]; rfl

/-- A thread that has returned does nothing with further turns. -/
theorem run_returned (i : Nat) (w : World T) (h : (thread whole fuel jobs i w).2.asked = none) (n : Nat) :
    run whole fuel jobs (List.replicate n i) w = w := by
  induction n with
  | zero => rfl
  | succ n ih =>
    rw [Nat.add_comm, run_add]
    have e : run whole fuel jobs (List.replicate 1 i) w = w := by
      show turn whole fuel jobs w i = w
      unfold turn; rw [h]
    rw [e, ih]

/-- A thread that has done some jobs (`pre`) and now has all the turns, until it has done some more (`mid`). -/
theorem run_alone (hw : Fits whole T) (i : Nat) (pre mid post : List Job) (hj : jobs i = pre ++ mid ++ post)
    (hp : ∀ job ∈ jobs i, job.Propagates) (w : World T) (past : List (T × T))
    (h0 : Job.runAll fuel pre (⟨w.had i, [], none⟩ : Turns whole T) = (.ok (), ⟨[], past, none⟩)) :
    ∃ n past', (run whole fuel jobs (List.replicate n i) w).device = (Job.runAll fuel mid w.device).2 ∧
      Job.runAll fuel (pre ++ mid)
        (⟨(run whole fuel jobs (List.replicate n i) w).had i, [], none⟩ : Turns whole T) =
        ((Job.runAll fuel mid w.device).1, ⟨[], past', none⟩) := by
  have hp1 : ∀ job ∈ pre, job.Propagates := fun job h => hp job (by rw [hj]; simp [h])
  have hp2 : ∀ job ∈ mid, job.Propagates := fun job h => hp job (by rw [hj]; simp [h])
  have hp12 : ∀ job ∈ pre ++ mid, job.Propagates := fun job h => hp job (by rw [hj]; exact List.mem_append_left _ h)
  obtain ⟨q, t', v', h1, h2, h3, h4⟩ :=
    Job.all_follows (fuel := fuel) hw mid hp2 ⟨[], past, none⟩ w.device rfl rfl
  have h3 : v' = ⟨[], past ++ q, none⟩ := h3
  have h4 : (Job.runAll fuel mid w.device).2 = t' := h4
  subst h3
  have hlen0 : past.length = (w.had i).length := by
    have g := ((Job.all_turnwise pre (whole := whole) (T := T) (fuel := fuel) hp1).grows ⟨w.had i, [], none⟩).2
    rw [h0] at g
    simpa using g
  have h2 : (Job.runAll fuel (pre ++ mid) ⟨w.had i ++ q.map Prod.fst, [], none⟩ : _ × Turns whole T) =
      ((Job.runAll fuel mid w.device).1, ⟨[], past ++ q, none⟩) := by
    rw [Job.runAll_append, Act.bind_apply, no_more hp1 (w.had i) (q.map Prod.fst) (by rw [h0]), h0]
    exact h2
  have key : ∀ m, m ≤ q.length →
      (run whole fuel jobs (List.replicate m i) w).had i = w.had i ++ (q.take m).map Prod.fst ∧
      Linked w.device (q.take m) (run whole fuel jobs (List.replicate m i) w).device := by
    intro m
    induction m with
    | zero => intro _; exact ⟨by simp [run], rfl⟩
    | succ m ih =>
      intro hm
      obtain ⟨i1, i2⟩ := ih (by omega)
      have hlt : m < q.length := by omega
      have hq : q = q.take m ++ q[m] :: q.drop (m + 1) := by
        rw [List.getElem_cons_drop, List.take_append_drop]
      have htake : q.take (m + 1) = q.take m ++ [q[m]] := by simp
      have hdev : (run whole fuel jobs (List.replicate m i) w).device = q[m].1 :=
        Linked.next (hq ▸ h1) i2
      have hsplit : w.had i ++ q.map Prod.fst =
          (w.had i ++ (q.take m).map Prod.fst) ++ (q[m] :: q.drop (m + 1)).map Prod.fst := by
        rw [List.append_assoc, ← List.map_append, ← hq]
      rw [run_add]
      generalize hg : run whole fuel jobs (List.replicate m i) w = u at i1 i2 hdev
      show (turn whole fuel jobs u i).had i = _ ∧ Linked _ _ (turn whole fuel jobs u i).device
      rcases ha : (Job.runAll fuel (pre ++ mid) ⟨u.had i, [], none⟩ : _ × Turns whole T).2.asked with _ | c
      · exfalso
        rw [i1] at ha
        have e := no_more hp12 _ ((q[m] :: q.drop (m + 1)).map Prod.fst) ha
        rw [← hsplit, h2] at e
        have e : [] = _ ++ (q[m] :: q.drop (m + 1)).map Prod.fst := congrArg (fun x => x.2.coming) e
        exact absurd e (by rw [List.map_cons]; simp)
      · have ha' := ha
        have hfull : (thread whole fuel jobs i u).2.asked = some c := by
          rw [thread, hj, waits hp12 post _ c ha]; exact ha
        rw [i1] at ha'
        obtain ⟨e1, e2⟩ := one_more hp12 _ q[m].1 c ha'
        have e3 := past_prefix (whole := whole) (fuel := fuel) hp12 (w.had i ++ (q.take m).map Prod.fst ++ [q[m].1])
          ((q.drop (m + 1)).map Prod.fst)
        have e4 : w.had i ++ (q.take m).map Prod.fst ++ [q[m].1] ++ (q.drop (m + 1)).map Prod.fst =
            w.had i ++ q.map Prod.fst := by
          rw [hsplit, List.map_cons, List.append_assoc, List.singleton_append]
        rw [e4, h2, e1] at e3
        have hlen : (Job.runAll fuel (pre ++ mid) ⟨w.had i ++ (q.take m).map Prod.fst, [], none⟩ :
            _ × Turns whole T).2.past.length = past.length + m := by
          rw [e2, List.length_append, List.length_map, List.length_take]; omega
        have e5 := List.prefix_iff_eq_take.1 e3
        simp only [List.length_append, hlen, List.length_singleton] at e5
        rw [Nat.add_assoc, List.take_length_add_append, htake, ← List.append_assoc] at e5
        have e6 := (List.append_inj' e5 rfl).2
        have e7 : c.perform q[m].1 = q[m].2 := by
          have := List.cons.inj e6
          exact congrArg Prod.snd this.1
        unfold turn
        rw [hfull]
        simp only [if_true, i1, hdev, htake, List.map_append, List.map_cons, List.map_nil, List.append_assoc, true_and]
        rw [e7]
        exact i2.append ⟨hdev.symm, rfl⟩
  obtain ⟨k1, k2⟩ := key q.length (Nat.le_refl _)
  rw [List.take_length] at k1 k2
  refine ⟨q.length, past ++ q, ?_, ?_⟩
  · rw [h4]; exact k2.unique h1
  · rw [k1, h2]

end Spec.World

end Stylish
