import Verif.Lemmas.StdLines
import Verif.Props.Io
/-
Properties of the io writers over std's buffered streams: C82, C83.
-/

namespace Stylish.Props

open Spec

/-- A list ending in no line break: what comes before a line break is in the first part. -/
theorem lines_prefix (dev buf lines rest : Bytes) (h : dev ++ buf = lines ++ [10] ++ rest) (hc : 10 ∉ buf) :
    lines ++ [10] <+: dev := by
  by_cases hle : (lines ++ [10]).length ≤ dev.length
  · refine List.prefix_of_prefix_length_le (l₃ := dev ++ buf) ?_ (List.prefix_append _ _) hle
    rw [h]
    exact List.prefix_append _ _
  · exfalso
    apply hc
    have hlt : dev.length ≤ lines.length := by simp at hle; omega
    have e : (dev ++ buf)[lines.length]? = (lines ++ [10] ++ rest)[lines.length]? := by rw [h]
    rw [List.getElem?_append_right hlt, List.append_assoc, List.getElem?_append_right (Nat.le_refl _)] at e
    simp at e
    exact List.mem_of_getElem? e

private theorem ansi_flush {n : Nat} {T : Type} [StdIoWrite T] {a a' : IoAnsi n T} {r : Res IoError Unit}
    (h : IoWrite.flush a = (r, a')) : StdIoWrite.flush a.inner = (r, a'.inner) := by
  simp only [IoWrite.flush, IoAnsi.onInner] at h
  obtain ⟨rfl, rfl⟩ := Prod.mk.inj h
  rfl

private theorem plain_flush {n : Nat} {T : Type} [StdIoWrite T] {a a' : IoPlain n T} {r : Res IoError Unit}
    (h : IoWrite.flush a = (r, a')) : StdIoWrite.flush a.inner = (r, a'.inner) := by
  simp only [IoWrite.flush, IoPlain.onInner] at h
  obtain ⟨rfl, rfl⟩ := Prod.mk.inj h
  rfl

/-! ## C82 -/

section
variable {cap fuel : Nat} {keep : Bytes → Nat → Nat} {T : Type} [StdIoWrite T] (k : IoSink T) (hq : QuietPanics k)
include hq

/-- C82: `BufWriter` and `LineWriter` over a stream that obeys the contracts obey them, where what counts as written
is what the device has got and what is still in the buffer, in this order. So everything said of streams holds of
them. -/
theorem C82_are_streams :
    (∃ k' : IoSink (BufWriter cap fuel T), ∀ s, k'.delivered s = k.delivered s.inner ++ s.buf) ∧
    (∃ k' : IoSink (LineWriter cap fuel keep T),
      ∀ s, k'.delivered s = k.delivered s.buffer.inner ++ s.buffer.buf) :=
  ⟨⟨BufWriter.sink k hq, fun _ => rfl⟩, ⟨LineWriter.sink k hq, fun _ => rfl⟩⟩

/-- C82: and they never fail over a stream that never fails; if it is interrupted at most `p` times in a row, they
keep going. -/
theorem C82_are_reliable (h : ReliableStream T) :
    (ReliableStream (BufWriter cap fuel T) ∧ ReliableStream (LineWriter cap fuel keep T)) ∧
    ∀ p, Steady p T → KeepsGoing T → cap * (p + 1) ≤ fuel →
      KeepsGoing (BufWriter cap fuel T) ∧ KeepsGoing (LineWriter cap fuel keep T) :=
  ⟨⟨BufWriter.reliable hq h, LineWriter.reliable hq h⟩,
    fun p hs hg hf => ⟨BufWriter.keepsGoing hq p hs hf hg, LineWriter.keepsGoing k hq p hs hf hg⟩⟩

/-- C82 for `io::Ansi` over a `BufWriter`: whatever happens, the device has got a prefix of what was written before
and the bytes of `ansi::format`; and when formatting, finishing and then flushing have returned `Ok`, exactly that. -/
theorem C82_ansi_buf (hk : FlushKeeps k) (args : Arguments) (hp : Propagates args.f) (s : Str)
    (hs : ansiFormat args = .ok s) (b : BufWriter cap fuel T) (n : Nat) (r : Res IoError Unit)
    (a : IoAnsi n (BufWriter cap fuel T))
    (h : (IoWrite.writeFmt args >>= fun _ => IoAnsi.finish) (IoAnsi.new b) = (r, a)) :
    k.delivered a.inner.inner <+: k.delivered b.inner ++ b.buf ++ utf8 s ∧
    (r = .ok () → ∀ a', IoWrite.flush a = (.ok (), a') →
      k.delivered a'.inner.inner = k.delivered b.inner ++ b.buf ++ utf8 s) := by
  obtain ⟨p, h1, h2, h3⟩ := C29_io_ansi (BufWriter.sink k hq) args hp s hs b n r a h
  have h2 : k.delivered a.inner.inner ++ a.inner.buf = k.delivered b.inner ++ b.buf ++ p := h2
  refine ⟨?_, fun hr a' hb => ?_⟩
  · exact (List.prefix_append _ a.inner.buf).trans (by rw [h2]; exact (List.prefix_append_right_inj _).2 h1)
  · obtain ⟨g1, g2⟩ := BufWriter.flush_spec hq hk _ _ _ (ansi_flush hb)
    have g1 : k.delivered a'.inner.inner ++ a'.inner.buf = k.delivered a.inner.inner ++ a.inner.buf := g1
    rw [g2 rfl, List.append_nil, h2, h3 hr] at g1
    exact g1

/-- C82 for `io::Plain` over a `BufWriter`. -/
theorem C82_plain_buf (hk : FlushKeeps k) (args : Arguments) (hp : Propagates args.f) (s : Str)
    (hs : plainFormat args = .ok s) (b : BufWriter cap fuel T) (n : Nat) (r : Res IoError Unit)
    (a : IoPlain n (BufWriter cap fuel T)) (h : IoWrite.writeFmt args (IoPlain.new b) = (r, a)) :
    k.delivered a.inner.inner <+: k.delivered b.inner ++ b.buf ++ utf8 s ∧
    (r = .ok () → ∀ a', IoWrite.flush a = (.ok (), a') →
      k.delivered a'.inner.inner = k.delivered b.inner ++ b.buf ++ utf8 s) := by
  obtain ⟨p, h1, h2, h3⟩ := C29_io_plain (BufWriter.sink k hq) args hp s hs b n r a h
  have h2 : k.delivered a.inner.inner ++ a.inner.buf = k.delivered b.inner ++ b.buf ++ p := h2
  refine ⟨?_, fun hr a' hb => ?_⟩
  · exact (List.prefix_append _ a.inner.buf).trans (by rw [h2]; exact (List.prefix_append_right_inj _).2 h1)
  · obtain ⟨g1, g2⟩ := BufWriter.flush_spec hq hk _ _ _ (plain_flush hb)
    have g1 : k.delivered a'.inner.inner ++ a'.inner.buf = k.delivered a.inner.inner ++ a.inner.buf := g1
    rw [g2 rfl, List.append_nil, h2, h3 hr] at g1
    exact g1

/-- C82 for `io::Ansi` over a `LineWriter`, such as `std::io::stdout()`. -/
theorem C82_ansi_line (hk : FlushKeeps k) (args : Arguments) (hp : Propagates args.f) (s : Str)
    (hs : ansiFormat args = .ok s) (b : LineWriter cap fuel keep T) (n : Nat) (r : Res IoError Unit)
    (a : IoAnsi n (LineWriter cap fuel keep T))
    (h : (IoWrite.writeFmt args >>= fun _ => IoAnsi.finish) (IoAnsi.new b) = (r, a)) :
    k.delivered a.inner.buffer.inner <+: k.delivered b.buffer.inner ++ b.buffer.buf ++ utf8 s ∧
    (r = .ok () → ∀ a', IoWrite.flush a = (.ok (), a') →
      k.delivered a'.inner.buffer.inner = k.delivered b.buffer.inner ++ b.buffer.buf ++ utf8 s) := by
  obtain ⟨p, h1, h2, h3⟩ := C29_io_ansi (LineWriter.sink k hq) args hp s hs b n r a h
  have h2 : k.delivered a.inner.buffer.inner ++ a.inner.buffer.buf =
    k.delivered b.buffer.inner ++ b.buffer.buf ++ p := h2
  refine ⟨?_, fun hr a' hb => ?_⟩
  · exact (List.prefix_append _ a.inner.buffer.buf).trans
      (by rw [h2]; exact (List.prefix_append_right_inj _).2 h1)
  · obtain ⟨g1, g2⟩ := BufWriter.flush_spec hq hk _ _ _ (LineWriter.onBuffer_inv (ansi_flush hb))
    have g1 : k.delivered a'.inner.buffer.inner ++ a'.inner.buffer.buf =
      k.delivered a.inner.buffer.inner ++ a.inner.buffer.buf := g1
    rw [g2 rfl, List.append_nil, h2, h3 hr] at g1
    exact g1

/-- C82 for `io::Plain` over a `LineWriter`, such as `std::io::stdout()`. -/
theorem C82_plain_line (hk : FlushKeeps k) (args : Arguments) (hp : Propagates args.f) (s : Str)
    (hs : plainFormat args = .ok s) (b : LineWriter cap fuel keep T) (n : Nat) (r : Res IoError Unit)
    (a : IoPlain n (LineWriter cap fuel keep T)) (h : IoWrite.writeFmt args (IoPlain.new b) = (r, a)) :
    k.delivered a.inner.buffer.inner <+: k.delivered b.buffer.inner ++ b.buffer.buf ++ utf8 s ∧
    (r = .ok () → ∀ a', IoWrite.flush a = (.ok (), a') →
      k.delivered a'.inner.buffer.inner = k.delivered b.buffer.inner ++ b.buffer.buf ++ utf8 s) := by
  obtain ⟨p, h1, h2, h3⟩ := C29_io_plain (LineWriter.sink k hq) args hp s hs b n r a h
  have h2 : k.delivered a.inner.buffer.inner ++ a.inner.buffer.buf =
    k.delivered b.buffer.inner ++ b.buffer.buf ++ p := h2
  refine ⟨?_, fun hr a' hb => ?_⟩
  · exact (List.prefix_append _ a.inner.buffer.buf).trans
      (by rw [h2]; exact (List.prefix_append_right_inj _).2 h1)
  · obtain ⟨g1, g2⟩ := BufWriter.flush_spec hq hk _ _ _ (LineWriter.onBuffer_inv (plain_flush hb))
    have g1 : k.delivered a'.inner.buffer.inner ++ a'.inner.buffer.buf =
      k.delivered a.inner.buffer.inner ++ a.inner.buffer.buf := g1
    rw [g2 rfl, List.append_nil, h2, h3 hr] at g1
    exact g1

/-- C82: a flush that failed can be tried again, any number of times: once one returns `Ok`, everything is there,
once. -/
theorem C82_flush_again (hk : FlushKeeps k) (b b' : BufWriter cap fuel T) (tries : Nat)
    (h : StdIoWrite.flush (Nat.repeat (fun b => (StdIoWrite.flush b).2) tries b) = (.ok (), b')) :
    k.delivered b'.inner = k.delivered b.inner ++ b.buf := by
  have hheld : ∀ n, BufWriter.held k (Nat.repeat (fun b => (StdIoWrite.flush b).2) n b) = BufWriter.held k b := by
    intro n
    induction n with
    | zero => rfl
    | succ n ih =>
      rw [← ih]
      exact (BufWriter.flush_spec hq hk _ _ _ rfl).1
  obtain ⟨g1, g2⟩ := BufWriter.flush_spec hq hk _ _ _ h
  rw [hheld] at g1
  have g1 : k.delivered b'.inner ++ b'.buf = k.delivered b.inner ++ b.buf := g1
  rwa [g2 rfl, List.append_nil] at g1

omit hq in
private theorem flush_finishes (hq : QuietPanics k) (hk : FlushKeeps k) (hn : ReliableStream T) (p : Nat)
    (hst : Steady p T) (hf : cap * (p + 1) ≤ fuel) (hfl : ∀ t : T, (StdIoWrite.flush t).1 = .ok ())
    (b : BufWriter cap fuel T) : ∃ b', BufWriter.flush b = (.ok (), b') ∧ b'.buf = [] ∧
      BufWriter.held k b' = BufWriter.held k b := by
  have h1 := (BufWriter.flushBuf_reliable k hn.write fuel b).resolve_right (BufWriter.flushBuf_fuel k p hst hf b)
  have h2 : (BufWriter.flush b).1 = .ok () := by
    unfold BufWriter.flush
    rw [Act.bind_apply]
    rcases hx : BufWriter.flushBuf fuel b with ⟨x, b1⟩
    rw [hx] at h1
    simp only at h1
    subst h1
    exact hfl b1.inner
  obtain ⟨g1, g2⟩ := BufWriter.flush_spec hq hk b _ _ rfl
  exact ⟨_, Prod.ext h2 rfl, g2 h2, g1⟩

/-- C82: over a device that never fails, formatting into `io::Ansi` over a `BufWriter` or a `LineWriter`, finishing
and flushing come to an end, return `Ok`, and the device has got exactly the bytes of `ansi::format`. -/
theorem C82_finishes (hk : FlushKeeps k) (hn : ReliableStream T) (hg : KeepsGoing T) (p : Nat) (hst : Steady p T)
    (hf : cap * (p + 1) ≤ fuel) (hfl : ∀ t : T, (StdIoWrite.flush t).1 = .ok ()) (args : Arguments) (s : Str)
    (hs : ansiFormat args = .ok s) (t : T) :
    (∃ enough, ∀ n, enough ≤ n → ∃ a a' a'' : IoAnsi n (BufWriter cap fuel T),
      IoWrite.writeFmt args (IoAnsi.new (.new t)) = (.ok (), a) ∧ IoAnsi.finish a = (.ok (), a') ∧
      IoWrite.flush a' = (.ok (), a'') ∧ k.delivered a''.inner.inner = k.delivered t ++ utf8 s) ∧
    (∃ enough, ∀ n, enough ≤ n → ∃ a a' a'' : IoAnsi n (LineWriter cap fuel keep T),
      IoWrite.writeFmt args (IoAnsi.new (.new t)) = (.ok (), a) ∧ IoAnsi.finish a = (.ok (), a') ∧
      IoWrite.flush a' = (.ok (), a'') ∧ k.delivered a''.inner.buffer.inner = k.delivered t ++ utf8 s) := by
  have hflush := flush_finishes (cap := cap) (fuel := fuel) k hq hk hn p hst hf hfl
  constructor
  · obtain ⟨enough, h⟩ := C26_finishes (BufWriter.sink (cap := cap) (fuel := fuel) k hq) (BufWriter.reliable hq hn)
      (BufWriter.keepsGoing hq p hst hf hg) args s hs (.new t)
    refine ⟨enough, fun n hle => ?_⟩
    obtain ⟨a, a', h1, h2, h3⟩ := h n hle
    obtain ⟨b', h4, h5, h6⟩ := hflush a'.inner
    refine ⟨a, a', ⟨b', a'.current⟩, h1, h2, ?_, ?_⟩
    · simp only [IoWrite.flush, IoAnsi.onInner, StdIoWrite.flush, h4]
    · have h3 : BufWriter.held k a'.inner = k.delivered t ++ [] ++ utf8 s := h3
      rw [← h6] at h3
      simpa [BufWriter.held, h5] using h3
  · obtain ⟨enough, h⟩ := C26_finishes (LineWriter.sink (cap := cap) (fuel := fuel) (keep := keep) k hq)
      (LineWriter.reliable hq hn) (LineWriter.keepsGoing k hq p hst hf hg) args s hs (.new t)
    refine ⟨enough, fun n hle => ?_⟩
    obtain ⟨a, a', h1, h2, h3⟩ := h n hle
    obtain ⟨b', h4, h5, h6⟩ := hflush a'.inner.buffer
    refine ⟨a, a', ⟨⟨b'⟩, a'.current⟩, h1, h2, ?_, ?_⟩
    · simp only [IoWrite.flush, IoAnsi.onInner, StdIoWrite.flush, LineWriter.onBuffer, h4]
    · have h3 : BufWriter.held k a'.inner.buffer = k.delivered t ++ [] ++ utf8 s := h3
      rw [← h6] at h3
      simpa [BufWriter.held, h5] using h3

omit hq in
private theorem drop_spec (hq : QuietPanics k) (b : BufWriter cap fuel T) :
    k.delivered b.drop <+: BufWriter.held k b ∧
    (ReliableStream T → ∀ p, Steady p T → cap * (p + 1) ≤ fuel → k.delivered b.drop = BufWriter.held k b) := by
  rcases hx : BufWriter.flushBuf fuel b with ⟨r, b'⟩
  obtain ⟨h1, h2, -⟩ := BufWriter.flushBuf_spec hq fuel b b' r hx
  have e : b.drop = b'.inner := by unfold BufWriter.drop; rw [hx]
  rw [e, ← h1]
  refine ⟨List.prefix_append _ _, fun hn p hst hf => ?_⟩
  have hr := (BufWriter.flushBuf_reliable k hn.write fuel b).resolve_right (BufWriter.flushBuf_fuel k p hst hf b)
  rw [hx] at hr
  rw [BufWriter.held, h2 hr, List.append_nil]

/-- C82: a buffered stream that is dropped and not flushed. The device has got a prefix of what was written before and
the bytes of `ansi::format`, however formatting ended; and over a device that never fails exactly that, if formatting
and finishing have returned `Ok`. (`C82_drop_hides_errors`: over one that fails, nobody is told.) -/
theorem C82_drop_ansi (args : Arguments) (hp : Propagates args.f) (s : Str) (hs : ansiFormat args = .ok s) (n : Nat)
    (r : Res IoError Unit) :
    (∀ (b : BufWriter cap fuel T) (a : IoAnsi n (BufWriter cap fuel T)),
      (IoWrite.writeFmt args >>= fun _ => IoAnsi.finish) (IoAnsi.new b) = (r, a) →
      k.delivered a.inner.drop <+: k.delivered b.inner ++ b.buf ++ utf8 s ∧
      (r = .ok () → ReliableStream T → ∀ p, Steady p T → cap * (p + 1) ≤ fuel →
        k.delivered a.inner.drop = k.delivered b.inner ++ b.buf ++ utf8 s)) ∧
    (∀ (b : LineWriter cap fuel keep T) (a : IoAnsi n (LineWriter cap fuel keep T)),
      (IoWrite.writeFmt args >>= fun _ => IoAnsi.finish) (IoAnsi.new b) = (r, a) →
      k.delivered a.inner.drop <+: k.delivered b.buffer.inner ++ b.buffer.buf ++ utf8 s ∧
      (r = .ok () → ReliableStream T → ∀ p, Steady p T → cap * (p + 1) ≤ fuel →
        k.delivered a.inner.drop = k.delivered b.buffer.inner ++ b.buffer.buf ++ utf8 s)) := by
  constructor
  · intro b a h
    obtain ⟨q, h1, h2, h3⟩ := C29_io_ansi (BufWriter.sink k hq) args hp s hs b n r a h
    have h2 : BufWriter.held k a.inner = k.delivered b.inner ++ b.buf ++ q := h2
    obtain ⟨g1, g2⟩ := drop_spec k hq a.inner
    refine ⟨g1.trans (by rw [h2]; exact (List.prefix_append_right_inj _).2 h1), fun hr hn p hst hf => ?_⟩
    rw [g2 hn p hst hf, h2, h3 hr]
  · intro b a h
    obtain ⟨q, h1, h2, h3⟩ := C29_io_ansi (LineWriter.sink k hq) args hp s hs b n r a h
    have h2 : BufWriter.held k a.inner.buffer = k.delivered b.buffer.inner ++ b.buffer.buf ++ q := h2
    obtain ⟨g1, g2⟩ := drop_spec k hq a.inner.buffer
    refine ⟨g1.trans (by rw [h2]; exact (List.prefix_append_right_inj _).2 h1), fun hr hn p hst hf => ?_⟩
    rw [LineWriter.drop, g2 hn p hst hf, h2, h3 hr]

/-- C82: the same for `io::Plain` and `plain::format`. -/
theorem C82_drop_plain (args : Arguments) (hp : Propagates args.f) (s : Str) (hs : plainFormat args = .ok s) (n : Nat)
    (r : Res IoError Unit) :
    (∀ (b : BufWriter cap fuel T) (a : IoPlain n (BufWriter cap fuel T)),
      IoWrite.writeFmt args (IoPlain.new b) = (r, a) →
      k.delivered a.inner.drop <+: k.delivered b.inner ++ b.buf ++ utf8 s ∧
      (r = .ok () → ReliableStream T → ∀ p, Steady p T → cap * (p + 1) ≤ fuel →
        k.delivered a.inner.drop = k.delivered b.inner ++ b.buf ++ utf8 s)) ∧
    (∀ (b : LineWriter cap fuel keep T) (a : IoPlain n (LineWriter cap fuel keep T)),
      IoWrite.writeFmt args (IoPlain.new b) = (r, a) →
      k.delivered a.inner.drop <+: k.delivered b.buffer.inner ++ b.buffer.buf ++ utf8 s ∧
      (r = .ok () → ReliableStream T → ∀ p, Steady p T → cap * (p + 1) ≤ fuel →
        k.delivered a.inner.drop = k.delivered b.buffer.inner ++ b.buffer.buf ++ utf8 s)) := by
  constructor
  · intro b a h
    obtain ⟨q, h1, h2, h3⟩ := C29_io_plain (BufWriter.sink k hq) args hp s hs b n r a h
    have h2 : BufWriter.held k a.inner = k.delivered b.inner ++ b.buf ++ q := h2
    obtain ⟨g1, g2⟩ := drop_spec k hq a.inner
    refine ⟨g1.trans (by rw [h2]; exact (List.prefix_append_right_inj _).2 h1), fun hr hn p hst hf => ?_⟩
    rw [g2 hn p hst hf, h2, h3 hr]
  · intro b a h
    obtain ⟨q, h1, h2, h3⟩ := C29_io_plain (LineWriter.sink k hq) args hp s hs b n r a h
    have h2 : BufWriter.held k a.inner.buffer = k.delivered b.buffer.inner ++ b.buffer.buf ++ q := h2
    obtain ⟨g1, g2⟩ := drop_spec k hq a.inner.buffer
    refine ⟨g1.trans (by rw [h2]; exact (List.prefix_append_right_inj _).2 h1), fun hr hn p hst hf => ?_⟩
    rw [LineWriter.drop, g2 hn p hst hf, h2, h3 hr]

/-- C82: the same for `io::Plain` and `plain::format`. -/
theorem C82_finishes_plain (hk : FlushKeeps k) (hn : ReliableStream T) (hg : KeepsGoing T) (p : Nat)
    (hst : Steady p T) (hf : cap * (p + 1) ≤ fuel) (hfl : ∀ t : T, (StdIoWrite.flush t).1 = .ok ())
    (args : Arguments) (s : Str) (hs : plainFormat args = .ok s) (t : T) :
    (∃ enough, ∀ n, enough ≤ n → ∃ a a' : IoPlain n (BufWriter cap fuel T),
      IoWrite.writeFmt args (IoPlain.new (.new t)) = (.ok (), a) ∧
      IoWrite.flush a = (.ok (), a') ∧ k.delivered a'.inner.inner = k.delivered t ++ utf8 s) ∧
    (∃ enough, ∀ n, enough ≤ n → ∃ a a' : IoPlain n (LineWriter cap fuel keep T),
      IoWrite.writeFmt args (IoPlain.new (.new t)) = (.ok (), a) ∧
      IoWrite.flush a = (.ok (), a') ∧ k.delivered a'.inner.buffer.inner = k.delivered t ++ utf8 s) := by
  have hflush := flush_finishes (cap := cap) (fuel := fuel) k hq hk hn p hst hf hfl
  constructor
  · obtain ⟨enough, h⟩ := C27_finishes (BufWriter.sink (cap := cap) (fuel := fuel) k hq) (BufWriter.reliable hq hn)
      (BufWriter.keepsGoing hq p hst hf hg) args s hs (.new t)
    refine ⟨enough, fun n hle => ?_⟩
    obtain ⟨a, h1, h3⟩ := h n hle
    obtain ⟨b', h4, h5, h6⟩ := hflush a.inner
    refine ⟨a, ⟨b'⟩, h1, ?_, ?_⟩
    · simp only [IoWrite.flush, IoPlain.onInner, StdIoWrite.flush, h4]
    · have h3 : BufWriter.held k a.inner = k.delivered t ++ [] ++ utf8 s := h3
      rw [← h6] at h3
      simpa [BufWriter.held, h5] using h3
  · obtain ⟨enough, h⟩ := C27_finishes (LineWriter.sink (cap := cap) (fuel := fuel) (keep := keep) k hq)
      (LineWriter.reliable hq hn) (LineWriter.keepsGoing k hq p hst hf hg) args s hs (.new t)
    refine ⟨enough, fun n hle => ?_⟩
    obtain ⟨a, h1, h3⟩ := h n hle
    obtain ⟨b', h4, h5, h6⟩ := hflush a.inner.buffer
    refine ⟨a, ⟨⟨b'⟩⟩, h1, ?_, ?_⟩
    · simp only [IoWrite.flush, IoPlain.onInner, StdIoWrite.flush, LineWriter.onBuffer, h4]
    · have h3 : BufWriter.held k a.inner.buffer = k.delivered t ++ [] ++ utf8 s := h3
      rw [← h6] at h3
      simpa [BufWriter.held, h5] using h3

/-! ## C83 -/

theorem plain_writeFmt_clear {n : Nat} (args : Arguments) (hp : Propagates args.f) :
    Keeping (fun w : IoPlain n (LineWriter cap fuel keep T) => w.inner.Clear) (IoWrite.writeFmt args) := by
  intro b _ a h hb
  unfold IoWrite.writeFmt at h
  rw [Write.writeFmt_propagates args hp] at h
  have hkeep := writeChunks_keeping (W := ErrorTrap (IoPlain n (LineWriter cap fuel keep T)))
    (I := fun w => w.inner.inner.Clear) (fun s st w u w' hw hI => by
      obtain ⟨o, e⟩ := IoPlain.trap_writeStr s st w
      rw [e] at hw
      obtain ⟨h1, rfl⟩ := Prod.mk.inj hw
      refine LineWriter.writeAll_clear hq n (utf8 s) _ () _ ?_ hI
      refine Prod.ext ?_ rfl
      show (StdIoWrite.writeAll n (utf8 s) w.inner.inner).1 = .ok ()
      revert h1
      cases (StdIoWrite.writeAll n (utf8 s) w.inner.inner).1 <;> simp) (denote args).1
  rcases hc : writeChunks (denote args).1 (ErrorTrap.new b) with ⟨rc, w⟩
  rw [hc] at h
  cases rc with
  | ok u =>
    have := hkeep _ _ _ hc hb
    rcases hd : (denote args).2 with x | x | _ | _ <;> rw [hd] at h <;> simp [afterChunks] at h
    rw [← h]
    exact this
  | err e => simp [afterChunks] at h
  | panic => simp [afterChunks] at h
  | diverge => simp [afterChunks] at h

theorem plain_flush_clear (hk : FlushKeeps k) {n : Nat} :
    Keeping (fun w : IoPlain n (LineWriter cap fuel keep T) => w.inner.Clear) IoWrite.flush := by
  intro b _ a h _
  have := (BufWriter.flush_spec hq hk _ _ _ (LineWriter.onBuffer_inv (plain_flush h))).2 rfl
  show 10 ∉ a.inner.buffer.buf
  rw [this]
  simp

/-- C83 for `io::Plain` over a line-buffered stream: when formatting has returned `Ok`, everything up to any line
break has reached the device, without a flush and under any schedule of short writes and interruptions. -/
theorem C83_plain (args : Arguments) (hp : Propagates args.f) (s : Str) (hs : plainFormat args = .ok s)
    (b : LineWriter cap fuel keep T) (hb : 10 ∉ b.buffer.buf) (n : Nat) (a : IoPlain n (LineWriter cap fuel keep T))
    (h : IoWrite.writeFmt args (IoPlain.new b) = (.ok (), a)) (lines rest : Bytes)
    (hl : k.delivered b.buffer.inner ++ b.buffer.buf ++ utf8 s = lines ++ [10] ++ rest) :
    lines ++ [10] <+: k.delivered a.inner.buffer.inner := by
  have hclear : 10 ∉ a.inner.buffer.buf := plain_writeFmt_clear k hq args hp _ _ _ h hb
  obtain ⟨p, h1, h2, h3⟩ := C29_io_plain (LineWriter.sink k hq) args hp s hs b n _ a h
  have h2 : k.delivered a.inner.buffer.inner ++ a.inner.buffer.buf =
    k.delivered b.buffer.inner ++ b.buffer.buf ++ p := h2
  rw [h3 rfl, hl] at h2
  exact lines_prefix _ _ _ _ h2 hclear

/-- C83 for `io::Ansi` over a line-buffered stream whose device takes all of what it is offered (or is interrupted, or
fails): when formatting and finishing have returned `Ok`, everything up to any line break has reached the device,
without a flush. (With short writes this fails: `C83_ansi_short_writes`.) -/
theorem C83_ansi (hw : ∀ b (t t' : T) m, StdIoWrite.write b t = (.ok m, t') → m = b.length) (args : Arguments)
    (hp : Propagates args.f) (s : Str) (hs : ansiFormat args = .ok s) (b : LineWriter cap fuel keep T)
    (hb : 10 ∉ b.buffer.buf) (n : Nat) (a : IoAnsi n (LineWriter cap fuel keep T))
    (h : (IoWrite.writeFmt args >>= fun _ => IoAnsi.finish) (IoAnsi.new b) = (.ok (), a)) (lines rest : Bytes)
    (hl : k.delivered b.buffer.inner ++ b.buffer.buf ++ utf8 s = lines ++ [10] ++ rest) :
    lines ++ [10] <+: k.delivered a.inner.buffer.inner := by
  have hclear : 10 ∉ a.inner.buffer.buf := by
    have h := h
    rw [Act.bind_apply] at h
    unfold IoWrite.writeFmt at h
    rw [Write.writeFmt_propagates args hp] at h
    have hkeep := writeChunks_keeping (W := ErrorTrap (IoAnsi n (LineWriter cap fuel keep T)))
      (I := fun w => ansiClear w.inner) (fun s st w u w' hx hI => by
        obtain ⟨o, e⟩ := IoAnsi.trap_writeStr s st w
        rw [e] at hx
        obtain ⟨h1, rfl⟩ := Prod.mk.inj hx
        refine ansi_writeAll_clear hq hw n (utf8 s) st _ () _ ?_ hI
        refine Prod.ext ?_ rfl
        show (defaultWriteAll IoAnsi.write n (utf8 s) st w.inner).1 = .ok ()
        revert h1
        cases (defaultWriteAll IoAnsi.write n (utf8 s) st w.inner).1 <;> simp) (denote args).1
    rcases hc : writeChunks (denote args).1 (ErrorTrap.new (IoAnsi.new b : IoAnsi n _)) with ⟨rc, w⟩
    rw [hc] at h
    cases rc with
    | ok u =>
      have hw1 := hkeep _ _ _ hc hb
      rcases hd : (denote args).2 with x | x | _ | _ <;> rw [hd] at h <;> simp [afterChunks] at h
      have hfin : Keeping (ansiClear (cap := cap) (fuel := fuel) (keep := keep) (T := T) (n := n)) IoAnsi.finish := by
        intro x u x' hx hI
        have hx : (if x.current ≠ Style.default then IoAnsi.put (str "\x1b[0m") else pure ()) x = (.ok u, x') := hx
        split at hx
        · exact put_clear hq _ _ _ _ hx hI
        · rw [← (Prod.mk.inj hx).2]; exact hI
      exact hfin _ _ _ h hw1
    | err e => simp [afterChunks] at h
    | panic => simp [afterChunks] at h
    | diverge => simp [afterChunks] at h
  obtain ⟨p, h1, h2, h3⟩ := C29_io_ansi (LineWriter.sink k hq) args hp s hs b n _ a h
  have h2 : k.delivered a.inner.buffer.inner ++ a.inner.buffer.buf =
    k.delivered b.buffer.inner ++ b.buffer.buf ++ p := h2
  rw [h3 rfl, hl] at h2
  exact lines_prefix _ _ _ _ h2 hclear

end

/-! ### Devices -/

/-- A device that is interrupted before every call that succeeds, and takes at most `most + 1` bytes at a time; with
`most = none` all of them. -/
structure Patchy (most : Option Nat) where
  ready : Bool
  got : Bytes
  deriving DecidableEq

/-- How many of `len` bytes it takes. -/
def Patchy.takes (most : Option Nat) (len : Nat) : Nat := match most with
  | some n => min (n + 1) len
  | none => len

theorem Patchy.takes_le (most : Option Nat) (len : Nat) : takes most len ≤ len := by
  unfold takes
  split <;> omega

instance (most : Option Nat) : StdIoWrite (Patchy most) where
  write b t :=
    if t.ready then (.ok (Patchy.takes most b.length), ⟨false, t.got ++ b.take (Patchy.takes most b.length)⟩)
    else (.err interrupted, ⟨true, t.got⟩)
  flush t := (.ok (), t)

/-- It obeys the contracts. -/
def patchy (most : Option Nat) : IoSink (Patchy most) :=
  have contract : WriteContract (StdIoWrite.write (T := Patchy most)) id Patchy.got := by
    constructor
    · intro b t t' n h
      simp only [StdIoWrite.write] at h
      split at h
      · simp only [Prod.mk.injEq, Res.ok.injEq] at h
        obtain ⟨rfl, rfl⟩ := h
        exact ⟨Patchy.takes_le _ _, by simp⟩
      · simp at h
    · intro b t t' e h
      simp only [StdIoWrite.write] at h
      split at h
      · simp at h
      · rw [← (Prod.mk.inj h).2]
    · intro b t t' r h hr
      simp only [StdIoWrite.write] at h
      split at h <;> obtain ⟨rfl, rfl⟩ := Prod.mk.inj h <;> simp at hr
  { delivered := Patchy.got, contract, all := .default contract }

theorem patchy_quiet (most : Option Nat) : QuietPanics (patchy most) := by
  intro b t t' r h hr
  simp only [StdIoWrite.write] at h
  split at h <;> obtain ⟨rfl, rfl⟩ := Prod.mk.inj h <;> simp at hr

theorem patchy_flush (most : Option Nat) : FlushKeeps (patchy most) := by
  intro t t' r h
  rw [← (Prod.mk.inj h).2]

theorem patchy_reliable (most : Option Nat) : ReliableStream (Patchy most) := by
  refine .default (patchy most) rfl ?_
  intro b t hb
  have hlen : 0 < b.length := List.length_pos_iff.2 hb
  simp only [StdIoWrite.write]
  split
  · refine Or.inl ⟨Patchy.takes most b.length - 1, ?_⟩
    have : 0 < Patchy.takes most b.length := by unfold Patchy.takes; split <;> omega
    simp only [Res.ok.injEq]
    omega
  · exact Or.inr (Or.inl ⟨interrupted, rfl, rfl⟩)

theorem patchy_steady (most : Option Nat) : Steady 1 (Patchy most) := by
  intro b t
  obtain ⟨ready, got⟩ := t
  cases ready with
  | true => exact ⟨by simp [StdIoWrite.write], by intro e h; simp [StdIoWrite.write] at h⟩
  | false => exact ⟨by simp [StdIoWrite.write], by intro e _ _ e' h; simp [StdIoWrite.write] at h⟩

theorem patchy_keepsGoing (most : Option Nat) : KeepsGoing (Patchy most) :=
  .default (patchy most) rfl (patchy_reliable most).write fun b t => ⟨(patchy_steady most b t).1, 1, (patchy_steady most b t).2⟩

theorem scriptSink_quiet : QuietPanics scriptSink := by
  intro b t t' r h hr
  simp only [StdIoWrite.write] at h
  split at h <;> obtain ⟨rfl, rfl⟩ := Prod.mk.inj h <;> simp at hr
  rfl

theorem scriptSink_flushKeeps : FlushKeeps scriptSink := by
  intro t t' r h
  rw [← (Prod.mk.inj h).2]

/-- "a\nb\n" in two styles, then an unfinished line. -/
def twoLines : Disp :=
  .writeStr ['a', '\n'] (Disp.try_ <|
    .within (.of Intensity.Bold) (.writeStr ['b', '\n', 'c'] .done) .done)

theorem twoLines_propagates : Propagates twoLines := by
  refine ⟨rfl, ⟨rfl, trivial⟩, rfl, trivial⟩

/-- C82 is not empty: a device that is interrupted all the time and takes two bytes at a time, below a buffer of four
bytes. -/
example : QuietPanics (patchy (some 1)) ∧ FlushKeeps (patchy (some 1)) ∧ ReliableStream (Patchy (some 1)) ∧
    KeepsGoing (Patchy (some 1)) ∧ Steady 1 (Patchy (some 1)) ∧ 4 * (1 + 1) ≤ 8 ∧
    (∀ t : Patchy (some 1), (StdIoWrite.flush t).1 = .ok ()) ∧ Propagates twoLines ∧
    ansiFormat ⟨twoLines⟩ = .ok (str "a\n\x1b[1mb\nc\x1b[0m") :=
  ⟨patchy_quiet _, patchy_flush _, patchy_reliable _, patchy_keepsGoing _, patchy_steady _, by decide, fun _ => rfl,
    twoLines_propagates, by decide +kernel⟩

example :
    ((IoWrite.writeFmt ⟨twoLines⟩ >>= fun _ => IoAnsi.finish)
      (IoAnsi.new (.new ⟨false, []⟩) : IoAnsi 9 (LineWriter 8 20 (stdKeep 8) (Patchy (some 1))))).1 = .ok () ∧
    (IoWrite.writeFmt ⟨twoLines⟩
      (IoPlain.new (.new ⟨false, []⟩) : IoPlain 9 (BufWriter 8 20 (Patchy (some 1))))) =
      (.ok (), ⟨⟨⟨false, []⟩, utf8 (str "a\nb\nc"), by decide⟩⟩) := by decide +kernel

/-- C82: why `flush`. Formatting and finishing into a buffer above a device that is full return `Ok`. If the stream is
dropped now, the text is lost and nobody is told; `flush` reports the error. -/
theorem C82_drop_hides_errors :
    let x := (IoWrite.writeFmt ⟨.writeStr ['a', 'b'] .done⟩ >>= fun _ => IoAnsi.finish)
      (IoAnsi.new (.new ⟨[.fail 28], []⟩) : IoAnsi 9 (BufWriter 8 20 ScriptSink))
    x.1 = .ok () ∧ x.2.inner.drop.got = [] ∧ (IoWrite.flush x.2).1 = .err (osError 28) := by decide +kernel

example :
    let x := (IoWrite.writeFmt ⟨twoLines⟩ >>= fun _ => IoAnsi.finish)
      (IoAnsi.new (.new ⟨false, []⟩) : IoAnsi 9 (LineWriter 8 20 (stdKeep 8) (Patchy (some 1))))
    x.1 = .ok () ∧ x.2.inner.drop.got = utf8 (str "a\n\x1b[1mb\nc\x1b[0m") := by decide +kernel

/-- A flush that fails twice and then succeeds: nothing is lost, nothing is written twice. -/
example :
    let b : BufWriter 4 8 ScriptSink := ⟨⟨[.accept 1, .fail 5, .accept 1, .fail 6], []⟩, [1, 2, 3], by decide⟩
    (StdIoWrite.flush b).1 = .err (osError 5) ∧
    (StdIoWrite.flush (StdIoWrite.flush b).2).1 = .err (osError 6) ∧
    StdIoWrite.flush (Nat.repeat (fun b => (StdIoWrite.flush b).2) 2 b) =
      (.ok (), ⟨⟨[], [1, 2, 3]⟩, [], by decide⟩) := by decide +kernel

example : QuietPanics scriptSink ∧ FlushKeeps scriptSink := ⟨scriptSink_quiet, scriptSink_flushKeeps⟩

/-- C83 is not empty: two complete lines and the start of a third, through a device that is interrupted before every
call; the third stays in the buffer. -/
example : (∀ b (t t' : Patchy none) m, StdIoWrite.write b t = (.ok m, t') → m = b.length) ∧
    ((IoWrite.writeFmt ⟨twoLines⟩ >>= fun _ => IoAnsi.finish)
      (IoAnsi.new (.new ⟨false, []⟩) : IoAnsi 9 (LineWriter 8 20 (stdKeep 8) (Patchy none)))) =
      (.ok (), ⟨⟨⟨⟨false, utf8 (str "a\n\x1b[1mb\n")⟩, utf8 (str "c\x1b[0m"), by decide⟩⟩, ⟨.Default, .Default, .Bold⟩⟩) ∧
    (IoWrite.writeFmt ⟨twoLines⟩
      (IoPlain.new (.new ⟨false, []⟩) : IoPlain 9 (LineWriter 8 20 (stdKeep 8) (Patchy (some 0))))) =
      (.ok (), ⟨⟨⟨⟨false, utf8 (str "a\nb\n")⟩, utf8 (str "c"), by decide⟩⟩⟩) := by
  refine ⟨fun b t t' m h => ?_, by decide +kernel⟩
  simp only [StdIoWrite.write] at h
  split at h
  · simp only [Prod.mk.injEq, Res.ok.injEq] at h
    exact h.1.symm
  · simp at h

/-- C83: why the theorem for `io::Ansi` asks for a device that takes all it is offered. `io::Ansi` writes text with
`write`, and offered a complete line of which the device takes one byte, std's `LineWriter::write` keeps the rest of
the line in its buffer: formatting "ab\n" and finishing return `Ok`, the device has got "a". `io::Plain` writes with
`write_all`; there the device has got the line. -/
theorem C83_ansi_short_writes :
    (IoWrite.writeFmt ⟨.writeStr ['a', 'b', '\n'] .done⟩ >>= fun _ => IoAnsi.finish)
      (IoAnsi.new (.new ⟨false, []⟩) : IoAnsi 9 (LineWriter 8 20 (stdKeep 8) (Patchy (some 0)))) =
      (.ok (), ⟨⟨⟨⟨false, utf8 ['a']⟩, utf8 ['b', '\n'], by decide⟩⟩, Style.default⟩) ∧
    IoWrite.writeFmt ⟨.writeStr ['a', 'b', '\n'] .done⟩
      (IoPlain.new (.new ⟨false, []⟩) : IoPlain 9 (LineWriter 8 20 (stdKeep 8) (Patchy (some 0)))) =
      (.ok (), ⟨⟨⟨⟨false, utf8 ['a', 'b', '\n']⟩, [], by decide⟩⟩⟩) := by decide +kernel

end Stylish.Props
