import Verif.Props.Io
import Verif.Props.Ansi
/-
C61: direct use of `stylish::io::Write`: byte buffers, written with `write` and `write_all` in any order and
split anywhere, also inside a character.
-/

namespace Stylish.Props

open Spec

/-! ### Histories -/

/-- One call a client makes, with the answer it got: `write(buf, style)` that returned `Ok(n)`,
`write_all(buf, style)` that returned `Ok(())`, `flush()` that returned `Ok(())`. -/
inductive AnsweredCall where
  | write (buf : Bytes) (style : Style) (n : Nat)
  | writeAll (buf : Bytes) (style : Style)
  | flush
  deriving DecidableEq, Repr

/-- From `w`, the calls made one after the other get these answers and lead to `w'`. -/
inductive AnsweredCalls {W : Type} [IoWrite W] : List AnsweredCall → W → W → Prop
  | nil (w : W) : AnsweredCalls [] w w
  | write (buf : Bytes) (st : Style) (n : Nat) (w w' w'' : W) (rest : List AnsweredCall) :
    IoWrite.write buf st w = (.ok n, w') → AnsweredCalls rest w' w'' →
    AnsweredCalls (.write buf st n :: rest) w w''
  | writeAll (buf : Bytes) (st : Style) (w w' w'' : W) (rest : List AnsweredCall) :
    IoWrite.writeAll buf st w = (.ok (), w') → AnsweredCalls rest w' w'' →
    AnsweredCalls (.writeAll buf st :: rest) w w''
  | flush (w w' w'' : W) (rest : List AnsweredCall) :
    IoWrite.flush w = (.ok (), w') → AnsweredCalls rest w' w'' → AnsweredCalls (.flush :: rest) w w''

/-- The bytes a call got accepted, each with the style it was written in. -/
def AnsweredCall.accepted : AnsweredCall → List (UInt8 × Style)
  | .write buf st n => (buf.take n).map (·, st)
  | .writeAll buf st => buf.map (·, st)
  | .flush => []

/-- A `write` made some progress. -/
def AnsweredCall.Progress : AnsweredCall → Prop
  | .write _ _ n => 0 < n
  | _ => True

/-- All the bytes accepted, in order. -/
def accepted (calls : List AnsweredCall) : List (UInt8 × Style) := calls.flatMap AnsweredCall.accepted

/-- The bytes of a styled text, each in the style of its character. -/
def textBytes (t : Styled) : List (UInt8 × Style) := t.flatMap fun x => (utf8 [x.1]).map (·, x.2)

/-- `out` is the given bytes with an escape sequence as in C17 before each of them. -/
inductive InterleavedBytes : Style → List (UInt8 × Style) → Bytes → Prop
  | nil (a : Style) : InterleavedBytes a [] []
  | cons (a : Style) (c : UInt8) (b : Style) (t : List (UInt8 × Style)) (e : Str) (out : Bytes) :
    SgrBetween a b e → InterleavedBytes b t out → InterleavedBytes a ((c, b) :: t) (utf8 e ++ c :: out)

section
variable {T U : Type} [StdIoWrite T] [StdIoWrite U]

/-- `out` is what reached the stream when a client made these calls, all answered `Ok`, on a new `io::Ansi`. -/
def IoAnsiDid (k : IoSink T) (fuel : Nat) (t : T) (calls : List AnsweredCall) (out : Bytes) : Prop :=
  ∃ a : IoAnsi fuel T, AnsweredCalls calls (IoAnsi.new t) a ∧ k.delivered a.inner = k.delivered t ++ out

/-- The same, followed by a successful `finish`. -/
def IoAnsiFinished (k : IoSink T) (fuel : Nat) (t : T) (calls : List AnsweredCall) (out : Bytes) : Prop :=
  ∃ a b : IoAnsi fuel T, AnsweredCalls calls (IoAnsi.new t) a ∧ IoAnsi.finish a = (.ok (), b) ∧
    k.delivered b.inner = k.delivered t ++ out

/-! ### Lemmas -/

/-- The bytes with the escape sequences between them. -/
def renderBytes : Style → List (UInt8 × Style) → Bytes
  | _, [] => []
  | a, (c, b) :: t => ansiSwitchBytes a b ++ c :: renderBytes b t

def lastByteStyle : Style → List (UInt8 × Style) → Style
  | a, [] => a
  | _, (_, b) :: t => lastByteStyle b t

theorem renderBytes_append (a : Style) (t u : List (UInt8 × Style)) :
    renderBytes a (t ++ u) = renderBytes a t ++ renderBytes (lastByteStyle a t) u := by
  induction t generalizing a with
  | nil => rfl
  | cons x t ih => obtain ⟨c, b⟩ := x; simp [renderBytes, lastByteStyle, ih]

theorem lastByteStyle_append (a : Style) (t u : List (UInt8 × Style)) :
    lastByteStyle a (t ++ u) = lastByteStyle (lastByteStyle a t) u := by
  induction t generalizing a with
  | nil => rfl
  | cons x t ih => obtain ⟨c, b⟩ := x; simp [lastByteStyle, ih]

theorem ansiSwitchBytes_self (a : Style) : ansiSwitchBytes a a = [] := by
  rw [ansiSwitchBytes, ansiSwitch_self]; rfl

theorem renderBytes_same (st : Style) (buf : Bytes) : renderBytes st (buf.map (·, st)) = buf := by
  induction buf with
  | nil => rfl
  | cons c buf ih => rw [List.map_cons, renderBytes, ansiSwitchBytes_self, ih]; rfl

theorem lastByteStyle_same (a st : Style) (buf : Bytes) (h : buf ≠ []) :
    lastByteStyle a (buf.map (·, st)) = st := by
  induction buf generalizing a with
  | nil => exact absurd rfl h
  | cons c buf ih =>
    rw [List.map_cons, lastByteStyle]
    cases buf with
    | nil => rfl
    | cons d buf => exact ih st (by simp)

theorem renderBytes_chunk (a st : Style) (buf : Bytes) (h : buf ≠ []) :
    renderBytes a (buf.map (·, st)) = ansiSwitchBytes a st ++ buf := by
  cases buf with
  | nil => exact absurd rfl h
  | cons c buf => rw [List.map_cons, renderBytes, renderBytes_same]

theorem interleaved_renderBytes (a : Style) (t : List (UInt8 × Style)) :
    InterleavedBytes a t (renderBytes a t) := by
  induction t generalizing a with
  | nil => exact .nil a
  | cons x t ih => obtain ⟨c, b⟩ := x; exact .cons a c b t _ _ (sgrBetween_switch a b) (ih b)

theorem renderBytes_text (a : Style) (t : Styled) :
    renderBytes a (textBytes t) = renderWith ansiSwitchBytes String.utf8EncodeChar a t ∧
    lastByteStyle a (textBytes t) = lastStyle a t := by
  induction t generalizing a with
  | nil => exact ⟨rfl, rfl⟩
  | cons x t ih =>
    obtain ⟨c, st⟩ := x
    have e : textBytes ((c, st) :: t) = (utf8 [c]).map (·, st) ++ textBytes t := rfl
    have hne : utf8 [c] ≠ [] := fun h => by simp [utf8_eq_nil] at h
    have hu : utf8 [c] = String.utf8EncodeChar c := by simp [utf8]
    rw [e, renderBytes_append, lastByteStyle_append, lastByteStyle_same _ _ _ hne,
      renderBytes_chunk _ _ _ hne, (ih st).1, (ih st).2, hu]
    exact ⟨rfl, rfl⟩

/-- A successful `write`. -/
theorem ioAnsi_write_ok (k : IoSink T) (fuel : Nat) (buf : Bytes) (st : Style) (a a' : IoAnsi fuel T) (n : Nat)
    (h : IoWrite.write buf st a = (.ok n, a')) : n ≤ buf.length ∧ a'.current = st ∧
      k.delivered a'.inner = k.delivered a.inner ++ (ansiSwitchBytes a.current st ++ buf.take n) := by
  have hw : (IoAnsi.switchStyle a.current st >>= fun _ => IoAnsi.setCurrent st >>= fun _ =>
      IoAnsi.onInner (StdIoWrite.write buf)) a = (.ok n, a') := h
  rw [Act.bind_apply] at hw
  have he := IoAnsi.switchStyle_emits k a.current st a
  rcases hs : IoAnsi.switchStyle a.current st a with ⟨rs, b⟩
  rw [hs] at hw he
  cases rs with
  | ok u =>
    have hb1 : k.delivered b.inner = k.delivered a.inner ++ utf8 (ansiSwitch a.current st) := he.1
    have hw : (let (r, t) := StdIoWrite.write buf b.inner; (r, (⟨t, st⟩ : IoAnsi fuel T))) = (.ok n, a') := hw
    rcases hx : StdIoWrite.write buf b.inner with ⟨x, t⟩
    rw [hx] at hw
    obtain ⟨rfl, rfl⟩ := Prod.mk.inj hw
    obtain ⟨h1, h2⟩ := k.contract.ok _ _ _ _ hx
    exact ⟨h1, rfl, by rw [h2, hb1]; simp [ansiSwitchBytes]⟩
  | err e => simp at hw
  | panic => simp at hw
  | diverge => simp at hw

/-- `flush` sends nothing that had not been delivered. -/
def FlushHarmless (k : IoSink T) : Prop :=
  ∀ (t t' : T), StdIoWrite.flush t = (.ok (), t') → k.delivered t' = k.delivered t

/-- What any history of calls does. -/
theorem answeredCalls_render (k : IoSink T) (fuel : Nat) (calls : List AnsweredCall) (hp : ∀ c ∈ calls, c.Progress)
    (hfl : FlushHarmless k) (a a' : IoAnsi fuel T) (h : AnsweredCalls calls a a') :
    k.delivered a'.inner = k.delivered a.inner ++ renderBytes a.current (accepted calls) ∧
    a'.current = lastByteStyle a.current (accepted calls) := by
  induction h with
  | nil w => exact ⟨by simp [accepted, renderBytes], rfl⟩
  | write buf st n w w' w'' rest hw _ ih =>
    have ih := ih (fun c hc => hp c (by simp [hc]))
    have hn : 0 < n := hp (.write buf st n) (by simp)
    have e : accepted (.write buf st n :: rest) = (buf.take n).map (·, st) ++ accepted rest := rfl
    obtain ⟨h1, h2, h3⟩ := ioAnsi_write_ok k fuel buf st w w' n hw
    rw [e, renderBytes_append, lastByteStyle_append, ih.1, ih.2, h2, h3]
    have hb : buf.take n ≠ [] := by
      rw [ne_eq, List.take_eq_nil_iff, not_or]
      refine ⟨by omega, ?_⟩
      rintro rfl
      simp only [List.length_nil] at h1
      omega
    rw [lastByteStyle_same _ _ _ hb, renderBytes_chunk _ _ _ hb]
    exact ⟨by simp, rfl⟩
  | writeAll buf st w w' w'' rest hw _ ih =>
    have ih := ih (fun c hc => hp c (by simp [hc]))
    have e : accepted (.writeAll buf st :: rest) = buf.map (·, st) ++ accepted rest := rfl
    have h1 := IoAnsi.writeAll_emits k fuel buf st w
    have hw' : defaultWriteAll IoAnsi.write fuel buf st w = (.ok (), w') := hw
    rw [hw'] at h1
    rw [e, renderBytes_append, lastByteStyle_append, ih.1, ih.2]
    by_cases hb : buf = []
    · subst hb
      simp only [List.isEmpty_nil, if_true] at h1
      have h2 : k.delivered w'.inner = k.delivered w.inner ++ [] := h1.1
      have h3 : w'.current = w.current := h1.2
      rw [h2, h3]
      exact ⟨by simp [renderBytes, lastByteStyle], rfl⟩
    · have hne : buf.isEmpty = false := by simpa using hb
      simp only [hne, Bool.false_eq_true, if_false] at h1
      have h2 : k.delivered w'.inner = k.delivered w.inner ++ (ansiSwitchBytes w.current st ++ buf) := h1.1
      have h3 : w'.current = st := h1.2
      rw [h2, h3, lastByteStyle_same _ _ _ hb, renderBytes_chunk _ _ _ hb]
      exact ⟨by simp, rfl⟩
  | flush w w' w'' rest hw _ ih =>
    have ih := ih (fun c hc => hp c (by simp [hc]))
    have hw : ((fun x => (x.1, (⟨x.2, w.current⟩ : IoAnsi fuel T))) (StdIoWrite.flush w.inner)) = (.ok (), w') := hw
    rcases hx : StdIoWrite.flush w.inner with ⟨x, t⟩
    rw [hx] at hw
    obtain ⟨rfl, rfl⟩ := Prod.mk.inj hw
    rw [ih.1, ih.2, hfl _ _ hx]
    exact ⟨rfl, rfl⟩

theorem ioAnsiDid_eq (k : IoSink T) (hfl : FlushHarmless k) (fuel : Nat) (t : T) (calls : List AnsweredCall)
    (hp : ∀ c ∈ calls, c.Progress) (out : Bytes) (h : IoAnsiDid k fuel t calls out) :
    out = renderBytes Style.default (accepted calls) := by
  obtain ⟨a, h1, h2⟩ := h
  have := (answeredCalls_render k fuel calls hp hfl _ a h1).1
  have e : k.delivered (IoAnsi.new (fuel := fuel) t).inner = k.delivered t := rfl
  rw [h2, e] at this
  exact List.append_cancel_left this

theorem ioAnsiFinished_eq (k : IoSink T) (hfl : FlushHarmless k) (fuel : Nat) (t : T) (calls : List AnsweredCall)
    (hp : ∀ c ∈ calls, c.Progress) (out : Bytes) (h : IoAnsiFinished k fuel t calls out) :
    out = renderBytes Style.default (accepted calls) ++
      ansiSwitchBytes (lastByteStyle Style.default (accepted calls)) Style.default := by
  obtain ⟨a, b, h1, h2, h3⟩ := h
  obtain ⟨h4, h5⟩ := answeredCalls_render k fuel calls hp hfl _ a h1
  have h6 := IoAnsi.finish_emits k a
  rw [h2] at h6
  have h7 : k.delivered b.inner = k.delivered a.inner ++ ansiSwitchBytes a.current Style.default := h6.1
  have e : k.delivered (IoAnsi.new (fuel := fuel) t).inner = k.delivered t := rfl
  have e' : (IoAnsi.new (fuel := fuel) t).current = Style.default := rfl
  rw [h3, h4, h5, e, e', List.append_assoc] at h7
  exact List.append_cancel_left h7

/-! ### C61 -/

/-- C61: whatever calls of `write` (making progress), `write_all` and `flush` a client makes on `io::Ansi`, on
any stream: if all are answered `Ok`, the stream got exactly the bytes accepted, in order, each after one
escape sequence from the style of the byte before it to its own (none if the styles are the same). -/
theorem C61_escape_only_on_change (k : IoSink T) (hfl : FlushHarmless k) (fuel : Nat) (t : T)
    (calls : List AnsweredCall) (hp : ∀ c ∈ calls, c.Progress) (out : Bytes) (h : IoAnsiDid k fuel t calls out) :
    InterleavedBytes ⟨.Default, .Default, .Normal⟩ (accepted calls) out := by
  rw [ioAnsiDid_eq k hfl fuel t calls hp out h]
  exact interleaved_renderBytes _ _

/-- C61: how the bytes were split over calls does not matter: two clients, on any two streams, that got the
same bytes accepted in the same styles have sent the same, before and after `finish`. -/
theorem C61_chunk_insensitive (k : IoSink T) (hfl : FlushHarmless k) (k' : IoSink U) (hfl' : FlushHarmless k')
    (fuel fuel' : Nat) (t : T) (t' : U) (calls calls' : List AnsweredCall) (hp : ∀ c ∈ calls, c.Progress)
    (hp' : ∀ c ∈ calls', c.Progress) (out out' : Bytes) (hsame : accepted calls = accepted calls') :
    (IoAnsiDid k fuel t calls out → IoAnsiDid k' fuel' t' calls' out' → out = out') ∧
    (IoAnsiFinished k fuel t calls out → IoAnsiFinished k' fuel' t' calls' out' → out = out') := by
  refine ⟨fun h h' => ?_, fun h h' => ?_⟩
  · rw [ioAnsiDid_eq k hfl fuel t calls hp out h, ioAnsiDid_eq k' hfl' fuel' t' calls' hp' out' h', hsame]
  · rw [ioAnsiFinished_eq k hfl fuel t calls hp out h, ioAnsiFinished_eq k' hfl' fuel' t' calls' hp' out' h',
      hsame]

/-- C61: bytes that are those of a styled text, split anywhere, even inside a character, give the bytes of
what the string writer `Ansi` gives for that text. -/
theorem C61_as_text {V : Type} [FmtWrite V] (k : IoSink T) (hfl : FlushHarmless k) (k' : FmtSink V) (fuel : Nat)
    (t : T) (t' : V) (calls : List AnsweredCall) (hp : ∀ c ∈ calls, c.Progress) (chs : List Chunk) (out : Bytes)
    (s : Str) (hsame : accepted calls = textBytes (flatten chs)) :
    (IoAnsiDid k fuel t calls out → AnsiWrote k' t' chs s → out = utf8 s) ∧
    (IoAnsiFinished k fuel t calls out → AnsiFinished k' t' chs s → out = utf8 s) := by
  refine ⟨fun h h' => ?_, fun h h' => ?_⟩
  · rw [ioAnsiDid_eq k hfl fuel t calls hp out h, ansiWrote_eq k' t' chs s h', hsame, (renderBytes_text _ _).1,
      render_bytes]
  · rw [ioAnsiFinished_eq k hfl fuel t calls hp out h, ansiFinished_eq k' t' chs s h', hsame,
      (renderBytes_text _ _).1, (renderBytes_text _ _).2, render_bytes, ansiRender, utf8_append]
    rfl

/-- C61 for `io::Plain`: the stream got exactly the bytes accepted, whatever the styles; here a `write` may
also have made no progress. -/
theorem C61_plain (k : IoSink T) (hfl : FlushHarmless k) (fuel : Nat) (t : T) (calls : List AnsweredCall)
    (a : IoPlain fuel T) (h : AnsweredCalls calls (IoPlain.new t) a) :
    k.delivered (IoPlain.intoInner a) = k.delivered t ++ (accepted calls).map Prod.fst := by
  have key : ∀ (w w' : IoPlain fuel T), AnsweredCalls calls w w' →
      k.delivered w'.inner = k.delivered w.inner ++ (accepted calls).map Prod.fst := by
    clear h
    intro w w' h
    induction h with
    | nil w => simp [accepted]
    | write buf st n w w' w'' rest hw _ ih =>
      have e : accepted (.write buf st n :: rest) = (buf.take n).map (·, st) ++ accepted rest := rfl
      have hw : ((fun x => (x.1, (⟨x.2⟩ : IoPlain fuel T))) (StdIoWrite.write buf w.inner)) = (.ok n, w') := hw
      rcases hx : StdIoWrite.write buf w.inner with ⟨x, u⟩
      rw [hx] at hw
      obtain ⟨rfl, rfl⟩ := Prod.mk.inj hw
      rw [e, ih, (k.contract.ok _ _ _ _ hx).2]
      simp [Function.comp_def]
    | writeAll buf st w w' w'' rest hw _ ih =>
      have e : accepted (.writeAll buf st :: rest) = buf.map (·, st) ++ accepted rest := rfl
      have hw : ((fun x => (x.1, (⟨x.2⟩ : IoPlain fuel T))) (StdIoWrite.writeAll fuel buf w.inner)) = (.ok (), w') := hw
      have h1 := all_emits k fuel buf w.inner
      rcases hx : StdIoWrite.writeAll fuel buf w.inner with ⟨x, u⟩
      rw [hx] at hw h1
      obtain ⟨rfl, rfl⟩ := Prod.mk.inj hw
      have h2 : k.delivered u = k.delivered w.inner ++ buf := h1.1
      rw [e, ih, h2]
      simp [Function.comp_def]
    | flush w w' w'' rest hw _ ih =>
      have hw : ((fun x => (x.1, (⟨x.2⟩ : IoPlain fuel T))) (StdIoWrite.flush w.inner)) = (.ok (), w') := hw
      rcases hx : StdIoWrite.flush w.inner with ⟨x, u⟩
      rw [hx] at hw
      obtain ⟨rfl, rfl⟩ := Prod.mk.inj hw
      rw [ih, hfl _ _ hx]
      rfl
  exact key _ _ h

end

theorem scriptSink_flush : FlushHarmless scriptSink := by
  intro t t' h
  obtain ⟨-, rfl⟩ := Prod.mk.inj h
  rfl

/-- Two histories for the same styled text "hé!", `hé` red: written in one go on a stream that takes it all,
and byte by byte, cutting `é` in two, on a stream that interrupts and takes one byte at a time. -/
example :
    let red : Style := ⟨.Red, .Default, .Normal⟩
    let calls : List AnsweredCall := [.writeAll (utf8 ['h', 'é']) red, .writeAll ['!'.toNat.toUInt8] .default]
    let calls' : List AnsweredCall := [.write (utf8 ['h', 'é']) red 2, .flush, .writeAll [0xa9] red,
      .writeAll ['!'.toNat.toUInt8] .default]
    accepted calls = accepted calls' ∧
    accepted calls = textBytes (flatten [(['h', 'é'], red), (['!'], .default)]) ∧
    IoAnsiFinished scriptSink 9 ⟨[], []⟩ calls (utf8 (str "\x1b[31mhé\x1b[0m!")) ∧
    IoAnsiFinished scriptSink 9 ⟨[.accept 1, .interrupt, .accept 4, .accept 1, .accept 2, .interrupt, .accept 1, .accept 2,
        .interrupt], []⟩ calls'
      (utf8 (str "\x1b[31mhé\x1b[0m!")) := by
  refine ⟨by decide +kernel, by decide +kernel, ⟨_, _, .writeAll _ _ _ _ _ _ rfl (.writeAll _ _ _ _ _ _ rfl (.nil _)), rfl, by decide +kernel⟩,
    ⟨_, _, .write _ _ _ _ _ _ _ rfl (.flush _ _ _ _ rfl (.writeAll _ _ _ _ _ _ rfl (.writeAll _ _ _ _ _ _ rfl (.nil _)))), rfl, by decide +kernel⟩⟩

end Stylish.Props
