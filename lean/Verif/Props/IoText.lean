import Verif.Lemmas.Utf8
import Verif.Props.Compose
import Verif.Props.Deliver
import Verif.Props.Lines
/-
C65: what the io side sends is text: well-formed UTF-8, and as text it has everything that is proved of the
strings the `fmt` side makes.
-/

namespace Stylish.Props

open Spec

variable {T : Type} [StdIoWrite T]

/-- One `write_fmt` after another, as long as they return `Ok`. -/
def writeFmts {W : Type} [IoWrite W] : List Arguments → Act W IoError Unit
  | [] => pure ()
  | args :: rest => do IoWrite.writeFmt args; writeFmts rest

/-- `bytes` is what reached the stream in successful calls of `write_fmt`, one for each of `calls`, on a new
`io::Ansi` around `t`. -/
def IoAnsiFmtSent (k : IoSink T) (t : T) (calls : List Arguments) (bytes : Bytes) : Prop :=
  ∃ fuel, ∃ a : IoAnsi fuel T, writeFmts calls (IoAnsi.new t) = (.ok (), a) ∧
    k.delivered a.inner = k.delivered t ++ bytes

/-- The same, followed by a successful `finish`. -/
def IoAnsiFmtFinished (k : IoSink T) (t : T) (calls : List Arguments) (bytes : Bytes) : Prop :=
  ∃ fuel, ∃ a b : IoAnsi fuel T, writeFmts calls (IoAnsi.new t) = (.ok (), a) ∧ IoAnsi.finish a = (.ok (), b) ∧
    k.delivered b.inner = k.delivered t ++ bytes

/-- The same for `io::Plain`. -/
def IoPlainFmtSent (k : IoSink T) (t : T) (calls : List Arguments) (bytes : Bytes) : Prop :=
  ∃ fuel, ∃ a : IoPlain fuel T, writeFmts calls (IoPlain.new t) = (.ok (), a) ∧
    k.delivered a.inner = k.delivered t ++ bytes

/-- `logs` are the writes the calls make, each on its own and on a writer that takes everything, all with
success; and their programs pass on failures (as everything the macros make does: C53). -/
structure Logs (calls : List Arguments) (logs : List (List Chunk)) : Prop where
  runs : calls.map (fun args => writes args.f Style.default FormatterArgs.default) = logs.map (·, .ok ())
  propagates : ∀ args ∈ calls, Propagates args.f

theorem Logs.tail {args : Arguments} {calls : List Arguments} {log : List Chunk} {logs : List (List Chunk)}
    (h : Logs (args :: calls) (log :: logs)) :
    writes args.f Style.default FormatterArgs.default = (log, .ok ()) ∧ Propagates args.f ∧ Logs calls logs := by
  have := h.runs
  simp only [List.map_cons, List.cons.injEq] at this
  exact ⟨this.1, h.propagates _ (by simp), this.2, fun a ha => h.propagates a (by simp [ha])⟩

theorem ioAnsi_writeFmt (k : IoSink T) {fuel : Nat} (args : Arguments) (hp : Propagates args.f)
    (log : List Chunk) (hl : writes args.f Style.default FormatterArgs.default = (log, .ok ()))
    (a : IoAnsi fuel T) :
    Emitted (IoAnsi.del k) IoAnsi.current a (IoWrite.writeFmt args a)
      (utf8 (renderWith ansiSwitch plainEnc a.current (flatten log))) (lastStyle a.current (flatten log)) := by
  unfold IoWrite.writeFmt
  have hd : denote args = (log, .ok ()) := hl
  rw [Write.writeFmt_propagates args hp, hd]
  have e := (IoAnsi.renders (fuel := fuel) k).writeChunks log (ErrorTrap.new a)
  rcases hc : writeChunks log (ErrorTrap.new a) with ⟨rc, w⟩
  rw [hc] at e
  rw [render_bytes] at *
  cases rc <;> exact e

theorem ioAnsi_writeFmts (k : IoSink T) {fuel : Nat} (calls : List Arguments) (logs : List (List Chunk))
    (hl : Logs calls logs) (a : IoAnsi fuel T) :
    Emitted (IoAnsi.del k) IoAnsi.current a (writeFmts calls a)
      (utf8 (renderWith ansiSwitch plainEnc a.current (flatten logs.flatten)))
      (lastStyle a.current (flatten logs.flatten)) := by
  induction calls generalizing logs a with
  | nil =>
    cases logs with
    | cons l ls => exact absurd (congrArg List.length hl.runs) (by simp)
    | nil => exact ⟨by simp [flatten, renderWith, utf8], rfl⟩
  | cons args calls ih =>
    cases logs with
    | nil => exact absurd (congrArg List.length hl.runs) (by simp)
    | cons log logs =>
      obtain ⟨h1, h2, h3⟩ := hl.tail
      have e1 := ioAnsi_writeFmt k args h2 log h1 a
      rw [writeFmts, Act.bind_apply]
      simp only [List.flatten_cons, flatten_append, renderWith_append, lastStyle_append, utf8_append]
      rcases hw : IoWrite.writeFmt args a with ⟨r, c⟩
      rw [hw] at e1
      cases r with
      | ok u =>
        obtain ⟨e1, e2⟩ := e1
        have e3 := ih logs h3 c
        rw [e2] at e3
        exact Emitted.append e1 e3
      | err e => obtain ⟨p, h1, h2⟩ := e1; exact ⟨p, h1.trans (List.prefix_append _ _), h2⟩
      | panic => obtain ⟨p, h1, h2⟩ := e1; exact ⟨p, h1.trans (List.prefix_append _ _), h2⟩
      | diverge => obtain ⟨p, h1, h2⟩ := e1; exact ⟨p, h1.trans (List.prefix_append _ _), h2⟩

theorem ioAnsi_finished (k : IoSink T) {fuel : Nat} (calls : List Arguments) (logs : List (List Chunk))
    (hl : Logs calls logs) (t : T) :
    Emitted (IoAnsi.del k) (fun _ => ()) (IoAnsi.new t : IoAnsi fuel T)
      ((writeFmts calls >>= fun _ => IoAnsi.finish) (IoAnsi.new t))
      (utf8 (ansiRender (flatten logs.flatten))) () := by
  have e := ioAnsi_writeFmts k calls logs hl (IoAnsi.new t : IoAnsi fuel T)
  rw [Act.bind_apply, ansiRender, utf8_append]
  rcases hw : writeFmts calls (IoAnsi.new t : IoAnsi fuel T) with ⟨r, c⟩
  rw [hw] at e
  cases r with
  | ok u =>
    obtain ⟨e1, e2⟩ := e
    have hf := IoAnsi.finish_emits k c
    rw [e2] at hf
    exact Emitted.append e1 hf
  | err e' => obtain ⟨p, h1, h2⟩ := e; exact ⟨p, h1.trans (List.prefix_append _ _), h2⟩
  | panic => obtain ⟨p, h1, h2⟩ := e; exact ⟨p, h1.trans (List.prefix_append _ _), h2⟩
  | diverge => obtain ⟨p, h1, h2⟩ := e; exact ⟨p, h1.trans (List.prefix_append _ _), h2⟩

theorem ioAnsiFmtFinished_eq (k : IoSink T) (t : T) (calls : List Arguments) (logs : List (List Chunk))
    (hl : Logs calls logs) (bytes : Bytes) (h : IoAnsiFmtFinished k t calls bytes) :
    bytes = utf8 (ansiRender (flatten logs.flatten)) := by
  obtain ⟨fuel, a, b, h1, h3, h2⟩ := h
  have e := ioAnsi_finished (fuel := fuel) k calls logs hl t
  rw [Act.bind_apply, h1] at e
  simp only [h3] at e
  have e1 : k.delivered b.inner = k.delivered t ++ _ := e.1
  rw [h2] at e1
  exact List.append_cancel_left e1

/-- C65: the bytes that reached the stream, at every point between two calls, are well-formed UTF-8, and read as
text they are what `Ansi` makes of the writes of all the calls together. Whatever the stream, and however often
it took less than it was offered or was interrupted. -/
theorem C65_ansi_is_text (k : IoSink T) (t : T) (calls : List Arguments) (logs : List (List Chunk))
    (hl : Logs calls logs) (bytes : Bytes) (h : IoAnsiFmtSent k t calls bytes) :
    ∃ out, decodeUtf8 bytes = some out ∧ AnsiWrote stringSink StdString.new logs.flatten out := by
  obtain ⟨fuel, a, h1, h2⟩ := h
  have e := ioAnsi_writeFmts k calls logs hl (IoAnsi.new t : IoAnsi fuel T)
  rw [h1] at e
  have e1 : k.delivered a.inner = k.delivered t ++ _ := e.1
  rw [h2] at e1
  have := List.append_cancel_left (as := k.delivered t) e1
  subst this
  exact ⟨_, decodeUtf8_utf8 _, (ansiFinished_exists stringSink stringSink_accepting StdString.new logs.flatten).1⟩

/-- C65: the same after `finish`. -/
theorem C65_ansi_finished_is_text (k : IoSink T) (t : T) (calls : List Arguments) (logs : List (List Chunk))
    (hl : Logs calls logs) (bytes : Bytes) (h : IoAnsiFmtFinished k t calls bytes) :
    ∃ out, decodeUtf8 bytes = some out ∧ AnsiFinished stringSink StdString.new logs.flatten out := by
  rw [ioAnsiFmtFinished_eq k t calls logs hl bytes h]
  exact ⟨_, decodeUtf8_utf8 _, (ansiFinished_exists stringSink stringSink_accepting StdString.new logs.flatten).2⟩

theorem ioPlainFmtSent_eq (k : IoSink T) (t : T) (calls : List Arguments) (logs : List (List Chunk))
    (hl : Logs calls logs) (bytes : Bytes) (h : IoPlainFmtSent k t calls bytes) :
    bytes = utf8 (logs.flatten.flatMap Prod.fst) := by
  obtain ⟨fuel, a, h1, h2⟩ := h
  have key : ∀ (calls : List Arguments) (logs : List (List Chunk)), Logs calls logs →
      ∀ a b : IoPlain fuel T, writeFmts calls a = (.ok (), b) →
      k.delivered b.inner = k.delivered a.inner ++ utf8 (logs.flatten.flatMap Prod.fst) := by
    intro calls
    induction calls with
    | nil =>
      intro logs hl a b h
      cases logs with
      | cons l ls => exact absurd (congrArg List.length hl.runs) (by simp)
      | nil => obtain ⟨-, rfl⟩ := Prod.mk.inj h; simp [utf8]
    | cons args calls ih =>
      intro logs hl a b h
      cases logs with
      | nil => exact absurd (congrArg List.length hl.runs) (by simp)
      | cons log logs =>
        obtain ⟨h1, h2, h3⟩ := hl.tail
        rw [writeFmts, Act.bind_apply] at h
        rcases hw : IoWrite.writeFmt args a with ⟨r, c⟩
        rw [hw] at h
        cases r <;> simp at h
        have e1 := C54_io_plain k args h2 log h1 a.inner fuel c hw
        rw [ih logs h3 c b h, e1]
        simp [utf8_append]
  have := key calls logs hl (IoPlain.new t) a h1
  rw [h2] at this
  exact List.append_cancel_left (as := k.delivered t) this

/-- C65 for `io::Plain`: the bytes are well-formed UTF-8, and read as text they are the text written. -/
theorem C65_plain_is_text (k : IoSink T) (t : T) (calls : List Arguments) (logs : List (List Chunk))
    (hl : Logs calls logs) (bytes : Bytes) (h : IoPlainFmtSent k t calls bytes) :
    decodeUtf8 bytes = some (logs.flatten.flatMap Prod.fst) := by
  rw [ioPlainFmtSent_eq k t calls logs hl bytes h, decodeUtf8_utf8]

/-- C65: a terminal that receives what `io::Ansi` sent shows the right characters in the right styles, whatever
kind of terminal it is, exactly when the text has no ESC and no direct change between bold and faint. -/
theorem C65_terminal (k : IoSink T) (t : T) (calls : List Arguments) (logs : List (List Chunk))
    (hl : Logs calls logs) (bytes : Bytes) (h : IoAnsiFmtSent k t calls bytes) :
    (∀ kind, ∃ out, decodeUtf8 bytes = some out ∧
      (Terminal.fresh.feed kind out).screen = shouldLook (flatten logs.flatten)) ↔
    NoEsc logs.flatten ∧ NoBoldFaint (flatten logs.flatten) := by
  obtain ⟨out, h1, h2⟩ := C65_ansi_is_text k t calls logs hl bytes h
  rw [← C14_exact stringSink StdString.new logs.flatten out h2]
  constructor
  · intro h kind
    obtain ⟨out', e, h⟩ := h kind
    rw [h1] at e
    obtain rfl := Option.some.inj e
    exact h
  · exact fun h kind => ⟨out, h1, h kind⟩

/-- C65: after `finish` the terminal is back in its default attributes with no sequence pending. -/
theorem C65_finish_resets (k : IoSink T) (t : T) (calls : List Arguments) (logs : List (List Chunk))
    (hl : Logs calls logs) (bytes : Bytes) (h : IoAnsiFmtFinished k t calls bytes) (hesc : NoEsc logs.flatten)
    (kind : TermKind) :
    ∃ out, decodeUtf8 bytes = some out ∧ (Terminal.fresh.feed kind out).attrs = Attrs.initial ∧
      (Terminal.fresh.feed kind out).mode = .ground := by
  obtain ⟨out, h1, h2⟩ := C65_ansi_finished_is_text k t calls logs hl bytes h
  have := C15_finish_resets stringSink StdString.new _ out h2 kind hesc
  exact ⟨out, h1, this.1, this.2.1⟩

/-- C65: the bytes `io::Ansi` sent, decoded and without the escape sequences, are the bytes `io::Plain` sends for
the same calls, decoded; also line by line. -/
theorem C65_strip (k : IoSink T) (t : T) {U : Type} [StdIoWrite U] (k' : IoSink U) (t' : U)
    (calls : List Arguments) (logs : List (List Chunk)) (hl : Logs calls logs) (bytes bytes' : Bytes)
    (h : IoAnsiFmtSent k t calls bytes ∨ IoAnsiFmtFinished k t calls bytes) (h' : IoPlainFmtSent k' t' calls bytes')
    (hesc : NoEsc logs.flatten) :
    ∃ a p, decodeUtf8 bytes = some a ∧ decodeUtf8 bytes' = some p ∧ stripSgr a = p ∧
      (lines a).map stripSgr = lines p := by
  have hp := C65_plain_is_text k' t' calls logs hl bytes' h'
  rcases h with h | h
  · obtain ⟨out, h1, h2⟩ := C65_ansi_is_text k t calls logs hl bytes h
    exact ⟨out, _, h1, hp, (C18_any_stream stringSink _ _ _ hesc).1 h2, C60_ansi_lines _ _ _ _ hesc (.inl h2)⟩
  · obtain ⟨out, h1, h2⟩ := C65_ansi_finished_is_text k t calls logs hl bytes h
    exact ⟨out, _, h1, hp, (C18_any_stream stringSink _ _ _ hesc).2 h2, C60_ansi_lines _ _ _ _ hesc (.inr h2)⟩

/-- C65: two finished outputs are the same bytes exactly when the styled text is the same, however it was divided
into calls and writes, and whatever the streams. -/
theorem C65_same_bytes (k : IoSink T) (t : T) {U : Type} [StdIoWrite U] (k' : IoSink U) (t' : U)
    (calls calls' : List Arguments) (logs logs' : List (List Chunk)) (hl : Logs calls logs)
    (hl' : Logs calls' logs') (bytes bytes' : Bytes) (h : IoAnsiFmtFinished k t calls bytes)
    (h' : IoAnsiFmtFinished k' t' calls' bytes') (hesc : NoEsc logs.flatten) (hesc' : NoEsc logs'.flatten) :
    bytes = bytes' ↔ flatten logs.flatten = flatten logs'.flatten := by
  rw [← C50_ansi stringSink stringSink StdString.new StdString.new _ _ _ _
    (ansiFinished_exists stringSink stringSink_accepting StdString.new logs.flatten).2
    (ansiFinished_exists stringSink stringSink_accepting StdString.new logs'.flatten).2 hesc hesc',
    ioAnsiFmtFinished_eq k t calls logs hl bytes h, ioAnsiFmtFinished_eq k' t' calls' logs' hl' bytes' h']
  exact ⟨utf8_injective _ _, congrArg _⟩

/-- A part of well-formed text, from its start, is well-formed text but for less than one character. -/
theorem prefix_utf8 (s : Str) (p : Bytes) (h : p <+: utf8 s) :
    ∃ s' rest, p = utf8 s' ++ rest ∧ s' <+: s ∧ rest.length ≤ 3 := by
  induction s generalizing p with
  | nil => exact ⟨[], [], by simpa [utf8] using h, List.nil_prefix, by simp⟩
  | cons c s ih =>
    have e : utf8 (c :: s) = String.utf8EncodeChar c ++ utf8 s := rfl
    rw [e] at h
    by_cases hl : (String.utf8EncodeChar c).length ≤ p.length
    · obtain ⟨q, rfl⟩ := List.prefix_of_prefix_length_le (List.prefix_append _ _) h hl
      obtain ⟨s', rest, rfl, h2, h3⟩ := ih q ((List.prefix_append_right_inj _).1 h)
      refine ⟨c :: s', rest, ?_, ?_, h3⟩
      · have e : utf8 (c :: s') = String.utf8EncodeChar c ++ utf8 s' := rfl
        rw [e, List.append_assoc]
      · obtain ⟨z, rfl⟩ := h2
        exact ⟨z, rfl⟩
    · refine ⟨[], p, by simp [utf8], List.nil_prefix, ?_⟩
      have : (String.utf8EncodeChar c).length ≤ 4 := by
        unfold String.utf8EncodeChar
        simp only
        split
        · simp
        split
        · simp
        split <;> simp
      omega

/-- C65: whatever happens - an error, a panic, or a stream that keeps the call busy forever, in any of the calls
or in `finish` - what has reached the stream is the start of the finished output and well-formed UTF-8 but for at
most three bytes at its end, the start of one character. -/
theorem C65_cut (k : IoSink T) (t : T) (calls : List Arguments) (logs : List (List Chunk)) (hl : Logs calls logs)
    (fuel : Nat) (r : Res IoError Unit) (a : IoAnsi fuel T)
    (h : (writeFmts calls >>= fun _ => IoAnsi.finish) (IoAnsi.new t) = (r, a)) :
    ∃ full out cut, AnsiFinished stringSink StdString.new logs.flatten full ∧ out <+: full ∧
      utf8 out ++ cut <+: utf8 full ∧ k.delivered a.inner = k.delivered t ++ (utf8 out ++ cut) ∧ cut.length ≤ 3 ∧
      (r = .ok () → out = full ∧ cut = []) := by
  have hA := (ansiFinished_exists stringSink stringSink_accepting StdString.new logs.flatten).2
  have e := ioAnsi_finished (fuel := fuel) k calls logs hl t
  rw [h] at e
  have key : (∃ p, p <+: utf8 (ansiRender (flatten logs.flatten)) ∧
      k.delivered a.inner = k.delivered t ++ p) →
      r ≠ .ok () → ∃ full out cut, AnsiFinished stringSink StdString.new logs.flatten full ∧ out <+: full ∧
      utf8 out ++ cut <+: utf8 full ∧ k.delivered a.inner = k.delivered t ++ (utf8 out ++ cut) ∧ cut.length ≤ 3 ∧
      (r = .ok () → out = full ∧ cut = []) := by
    rintro ⟨p, h1, h2⟩ hr
    obtain ⟨s', rest, rfl, h3, h4⟩ := prefix_utf8 _ _ h1
    exact ⟨_, s', rest, hA, h3, h1, h2, h4, fun h => absurd h hr⟩
  cases r with
  | ok u =>
    have e1 : k.delivered a.inner = k.delivered t ++ _ := e.1
    exact ⟨_, _, [], hA, List.prefix_rfl, by rw [List.append_nil]; exact List.prefix_rfl,
      by rw [e1, List.append_nil], by simp, fun _ => ⟨rfl, rfl⟩⟩
  | err x => exact key e (by simp)
  | panic => exact key e (by simp)
  | diverge => exact key e (by simp)

theorem ioPlain_writeFmts (k : IoSink T) {fuel : Nat} (calls : List Arguments) (logs : List (List Chunk))
    (hl : Logs calls logs) (a : IoPlain fuel T) :
    Emitted (fun a : IoPlain fuel T => k.delivered a.inner) (fun _ => ()) a (writeFmts calls a)
      (utf8 (logs.flatten.flatMap Prod.fst)) () := by
  induction calls generalizing logs a with
  | nil =>
    cases logs with
    | cons l ls => exact absurd (congrArg List.length hl.runs) (by simp)
    | nil => exact ⟨by simp [utf8], rfl⟩
  | cons args calls ih =>
    cases logs with
    | nil => exact absurd (congrArg List.length hl.runs) (by simp)
    | cons log logs =>
      obtain ⟨h1, h2, h3⟩ := hl.tail
      have hd : denote args = (log, .ok ()) := h1
      have htext : text (flatten log) = log.flatMap Prod.fst := by
        simp [text, flatten, List.map_flatMap, paint, Function.comp_def]
      have e1 : Emitted (fun a : IoPlain fuel T => k.delivered a.inner) (fun _ => ()) a
          (IoWrite.writeFmt args a) (utf8 (log.flatMap Prod.fst)) () := by
        unfold IoWrite.writeFmt
        rw [Write.writeFmt_propagates args h2, hd]
        have e := IoPlain.chunks_emits k log (ErrorTrap.new a)
        rw [htext] at e
        rcases hc : writeChunks log (ErrorTrap.new a) with ⟨rc, w⟩
        rw [hc] at e
        cases rc <;> exact e
      rw [writeFmts, Act.bind_apply]
      simp only [List.flatten_cons, List.flatMap_append, utf8_append]
      rcases hw : IoWrite.writeFmt args a with ⟨r, c⟩
      rw [hw] at e1
      cases r with
      | ok u => exact Emitted.append e1.1 (ih logs h3 c)
      | err e => obtain ⟨p, h1, h2⟩ := e1; exact ⟨p, h1.trans (List.prefix_append _ _), h2⟩
      | panic => obtain ⟨p, h1, h2⟩ := e1; exact ⟨p, h1.trans (List.prefix_append _ _), h2⟩
      | diverge => obtain ⟨p, h1, h2⟩ := e1; exact ⟨p, h1.trans (List.prefix_append _ _), h2⟩

/-- C65 for `io::Plain`: whatever happens, what has reached the stream is the start of the text of all the calls,
well-formed UTF-8 but for at most three bytes at its end. -/
theorem C65_plain_cut (k : IoSink T) (t : T) (calls : List Arguments) (logs : List (List Chunk))
    (hl : Logs calls logs) (fuel : Nat) (r : Res IoError Unit) (a : IoPlain fuel T)
    (h : writeFmts calls (IoPlain.new t) = (r, a)) :
    ∃ out cut, out <+: logs.flatten.flatMap Prod.fst ∧ utf8 out ++ cut <+: utf8 (logs.flatten.flatMap Prod.fst) ∧
      k.delivered a.inner = k.delivered t ++ (utf8 out ++ cut) ∧ cut.length ≤ 3 ∧
      (r = .ok () → out = logs.flatten.flatMap Prod.fst ∧ cut = []) := by
  have e := ioPlain_writeFmts k calls logs hl (IoPlain.new t : IoPlain fuel T)
  rw [h] at e
  have key : (∃ p, p <+: utf8 (logs.flatten.flatMap Prod.fst) ∧ k.delivered a.inner = k.delivered t ++ p) →
      r ≠ .ok () → ∃ out cut, out <+: logs.flatten.flatMap Prod.fst ∧
      utf8 out ++ cut <+: utf8 (logs.flatten.flatMap Prod.fst) ∧
      k.delivered a.inner = k.delivered t ++ (utf8 out ++ cut) ∧ cut.length ≤ 3 ∧
      (r = .ok () → out = logs.flatten.flatMap Prod.fst ∧ cut = []) := by
    rintro ⟨p, h1, h2⟩ hr
    obtain ⟨s', rest, rfl, h3, h4⟩ := prefix_utf8 _ _ h1
    exact ⟨s', rest, h3, h1, h2, h4, fun h => absurd h hr⟩
  cases r with
  | ok u =>
    have e1 : k.delivered a.inner = k.delivered t ++ _ := e.1
    exact ⟨_, [], List.prefix_rfl, by rw [List.append_nil]; exact List.prefix_rfl,
      by rw [e1, List.append_nil], by simp, fun _ => ⟨rfl, rfl⟩⟩
  | err x => exact key e (by simp)
  | panic => exact key e (by simp)
  | diverge => exact key e (by simp)

/-- A second call for the example: `é` in red. -/
def redProg : Disp := .within (.of (Foreground.mk .Red)) (.writeStr ['é'] .done) .done

/-- Example: two calls, on a stream that takes the `é` byte by byte and is interrupted in between. -/
example : Logs [⟨sampleProg⟩, ⟨redProg⟩]
      [[(['a'], Style.default), (['b'], ⟨.Red, .Default, .Bold⟩), (['c'], Style.default)],
       [(['é'], ⟨.Red, .Default, .Normal⟩)]] ∧
    IoAnsiFmtFinished scheduleSink ⟨[some 3, some 0, none, none, some 9, some 9, some 9, some 9, some 0, none], []⟩
      [⟨sampleProg⟩, ⟨redProg⟩] (utf8 (str "a\x1b[31;1mb\x1b[0mc\x1b[31mé\x1b[0m")) ∧
    decodeUtf8 (utf8 (str "a\x1b[31;1mb\x1b[0mc\x1b[31mé\x1b[0m")) =
      some (str "a\x1b[31;1mb\x1b[0mc\x1b[31mé\x1b[0m") := by
  refine ⟨⟨rfl, fun args h => ?_⟩,
    ⟨9, ⟨⟨[], utf8 (str "a\x1b[31;1mb\x1b[0mc\x1b[31mé")⟩, ⟨.Red, .Default, .Normal⟩⟩,
      ⟨⟨[], utf8 (str "a\x1b[31;1mb\x1b[0mc\x1b[31mé\x1b[0m")⟩, ⟨.Red, .Default, .Normal⟩⟩,
      by decide +kernel, by decide +kernel, by decide +kernel⟩, decodeUtf8_utf8 _⟩
  rcases List.mem_cons.1 h with rfl | h
  · refine ⟨rfl, ⟨rfl, trivial⟩, rfl, fun _ args => ?_⟩
    dsimp only
    split <;> exact ⟨rfl, trivial⟩
  · obtain rfl := List.mem_singleton.1 h
    exact ⟨⟨rfl, trivial⟩, rfl, trivial⟩

/-- Example: the stream fails inside the `é`: one byte of it has arrived. -/
example : ((writeFmts [⟨redProg⟩] >>= fun _ => IoAnsi.finish)
      (IoAnsi.new ⟨[.accept 9, .accept 9, .accept 9, .accept 1, .fail 7], []⟩ : IoAnsi 9 ScriptSink)) =
    (.err (osError 7), ⟨⟨[], utf8 (str "\x1b[31m") ++ [0xC3]⟩, ⟨.Red, .Default, .Normal⟩⟩) := by
  decide +kernel

/-- Example: the same for `io::Plain`. -/
example : writeFmts [⟨redProg⟩] (IoPlain.new ⟨[.accept 1, .fail 7], []⟩ : IoPlain 9 ScriptSink) =
    (.err (osError 7), ⟨⟨[], [0xC3]⟩⟩) := by
  decide +kernel

end Stylish.Props
