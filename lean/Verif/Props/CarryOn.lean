import Verif.Spec.CarryOn
import Verif.Props.Ansi
import Verif.Props.Html
import Verif.Props.Text
import Verif.Props.Io
import Verif.Props.Lines
/-
C85: a value that cannot be formatted harms nothing but its own text.
-/

namespace Stylish.Props

open Spec

/-- C85, any writer that takes every write: each call ends as its own values make it end, whatever became of the
calls before, and the writer is where it would be if the texts the calls wrote - those that failed or panicked: up
to there - had been written to it, and nothing else had happened. -/
theorem C85_any_writer {W : Type} [Write W] (hW : Accepting W) (calls : List Arguments) (w : W) :
    (carryOn calls w).1 = calls.map endOf ∧
    writeChunks (calls.flatMap textOf) w = (.ok (), (carryOn calls w).2) := by
  induction calls generalizing w with
  | nil => exact ⟨rfl, rfl⟩
  | cons x xs ih =>
    simp only [carryOn, Write.writeFmt_accepting hW x w]
    obtain ⟨h1, h2⟩ := ih (writeChunks (denote x).1 w).2
    refine ⟨by rw [h1]; rfl, ?_⟩
    rw [← h2, List.flatMap_cons, writeChunks_append, show textOf x = (denote x).1 from rfl,
      show writeChunks (denote x).1 w = (.ok (), (writeChunks (denote x).1 w).2) from
        Prod.ext (by rw [Accepting.writeChunks hW]) rfl]

section
variable {T : Type} [FmtWrite T]

/-- C85 for `Ansi`: carrying on and then finishing succeeds; what the stream got is what it gets when all the texts
are written to a new `Ansi` one after the other. On a terminal (C14, with its conditions) every character that was
written, before or after a failure, is in its style, and at the end the terminal is in its initial state. -/
theorem C85_ansi (k : FmtSink T) (hT : AcceptingSink T) (t : T) (calls : List Arguments) :
    (carryOn calls (Ansi.new t)).1 = calls.map endOf ∧
    ∃ b out, Ansi.finish (carryOn calls (Ansi.new t)).2 = (.ok (), b) ∧
      k.delivered b.inner = k.delivered t ++ out ∧
      AnsiFinished stringSink StdString.new (calls.flatMap textOf) out ∧
      ∀ kind, NoEsc (calls.flatMap textOf) →
        kind = .exclusive ∨ NoBoldFaint (flatten (calls.flatMap textOf)) →
        (Terminal.fresh.feed kind out).screen = shouldLook (flatten (calls.flatMap textOf)) ∧
        (Terminal.fresh.feed kind out).attrs = Attrs.initial := by
  obtain ⟨h1, h2⟩ := C85_any_writer (Ansi.accepting hT) calls (Ansi.new t)
  refine ⟨h1, ?_⟩
  obtain ⟨a, b, h3, h4, h5⟩ := (ansiFinished_exists k hT t (calls.flatMap textOf)).2
  rw [h2] at h3
  obtain ⟨-, rfl⟩ := Prod.mk.inj h3
  have hS := (ansiFinished_exists stringSink stringSink_accepting StdString.new (calls.flatMap textOf)).2
  refine ⟨b, _, h4, h5, hS, fun kind hesc hkind => ⟨?_, (C15_finish_resets _ _ _ _ hS kind hesc).1⟩⟩
  have e : Terminal.fresh = ⟨.ground, Attrs.ofStyle Style.default, []⟩ := rfl
  rw [ansiRender, feed_append, e, feed_render kind Style.default _ [] (noEsc_flatten _ hesc)
    (hkind.imp id (noBoldFaint_from _).1), feed_switch kind _ _ _ (Or.inr (by simp [BoldFaint, Style.default]))]
  simp [look, shouldLook]

/-- C85 for `Html`: the page reads back as all the texts, each character in its style; it is balanced. -/
theorem C85_html (k : FmtSink T) (hT : AcceptingSink T) (t : T) (calls : List Arguments) :
    (carryOn calls (Html.new t)).1 = calls.map endOf ∧
    ∃ b out, Html.finish (carryOn calls (Html.new t)).2 = (.ok (), b) ∧
      k.delivered b.inner = k.delivered t ++ out ∧
      HtmlFinished stringSink StdString.new (calls.flatMap textOf) out ∧
      HtmlReader.read out = some (flatten (calls.flatMap textOf)) := by
  obtain ⟨h1, h2⟩ := C85_any_writer (Html.accepting hT) calls (Html.new t)
  refine ⟨h1, ?_⟩
  obtain ⟨a, b, h3, h4, h5⟩ := (htmlFinished_exists k hT t (calls.flatMap textOf)).2
  rw [h2] at h3
  obtain ⟨-, rfl⟩ := Prod.mk.inj h3
  have hS := (htmlFinished_exists stringSink stringSink_accepting StdString.new (calls.flatMap textOf)).2
  exact ⟨b, _, h4, h5, hS, C19_reads_back _ _ _ _ hS⟩

/-- C85 for `Plain`: exactly the texts. -/
theorem C85_plain (k : FmtSink T) (hT : AcceptingSink T) (t : T) (calls : List Arguments) :
    (carryOn calls (Plain.new t)).1 = calls.map endOf ∧
    k.delivered (Plain.intoInner (carryOn calls (Plain.new t)).2) =
      k.delivered t ++ (calls.flatMap textOf).flatMap Prod.fst := by
  obtain ⟨h1, h2⟩ := C85_any_writer (plain_accepting hT) calls (Plain.new t)
  exact ⟨h1, C10_plain_writes k (calls.flatMap textOf) t _ h2⟩

end

/-- C85 for an attributed `String`: displayed anywhere it gives all the texts, each character in its style. -/
theorem C85_string (calls : List Arguments) (style : Style) (args : FormatterArgs) :
    (carryOn calls StyString.new).1 = calls.map endOf ∧
    ∃ log, writes (Display.fmt (carryOn calls StyString.new).2) style args = (log, .ok ()) ∧
      flatten log = flatten (calls.flatMap textOf) := by
  obtain ⟨h1, h2⟩ := C85_any_writer StyString.accepting calls StyString.new
  obtain ⟨s, h3, log, h4, h5⟩ := C11_string_remembers (calls.flatMap textOf) style args
  rw [h2] at h3
  obtain ⟨-, rfl⟩ := Prod.mk.inj h3
  exact ⟨h1, log, h4, h5⟩

/-! ### byte streams -/

section
variable {W : Type} [IoWrite W]

theorem trap_keeps_one (s : Str) (st : Style) (w w' : ErrorTrap W) (h : Write.writeStr s st w = (.ok (), w')) :
    w'.error = w.error := by
  have e : Write.writeStr s st w = match IoWrite.writeAll (utf8 s) st w.inner with
    | (.ok (), v) => (.ok (), { w with inner := v })
    | (.err err, v) => (.err (), { w with inner := v, error := some err })
    | (.panic, v) => (.panic, { w with inner := v })
    | (.diverge, v) => (.diverge, { w with inner := v }) := rfl
  rw [e] at h
  rcases hr : (IoWrite.writeAll (utf8 s) st : Act W IoError Unit) w.inner with ⟨r, v⟩
  rw [hr] at h
  cases r with
  | ok u => rw [← (Prod.mk.inj h).2]
  | err e => exact absurd (Prod.mk.inj h).1 (by simp)
  | panic => exact absurd (Prod.mk.inj h).1 (by simp)
  | diverge => exact absurd (Prod.mk.inj h).1 (by simp)

/-- A write through the trap that succeeds. -/
theorem trap_ok (s : Str) (st : Style) (w : ErrorTrap W) (v : W)
    (h : IoWrite.writeAll (utf8 s) st w.inner = (.ok (), v)) :
    Write.writeStr s st w = (.ok (), { w with inner := v }) := by
  have e : Write.writeStr s st w = match IoWrite.writeAll (utf8 s) st w.inner with
    | (.ok (), v) => (.ok (), { w with inner := v })
    | (.err err, v) => (.err (), { w with inner := v, error := some err })
    | (.panic, v) => (.panic, { w with inner := v })
    | (.diverge, v) => (.diverge, { w with inner := v }) := rfl
  rw [e, h]

/-- As long as no write fails, the trap holds no error. -/
theorem trap_keeps (chs : List Chunk) (w w' : ErrorTrap W) (h : writeChunks chs w = (.ok (), w')) :
    w'.error = w.error := by
  induction chs generalizing w with
  | nil => rw [← (Prod.mk.inj h).2]
  | cons ch chs ih =>
    rw [writeChunks_cons] at h
    rcases hr : (Write.writeStr ch.1 ch.2 : Act (ErrorTrap W) FmtError Unit) w with ⟨r, v⟩
    rw [hr] at h
    cases r with
    | ok u => rw [ih v h, trap_keeps_one _ _ _ _ hr]
    | err e => exact absurd (Prod.mk.inj h).1 (by simp)
    | panic => exact absurd (Prod.mk.inj h).1 (by simp)
    | diverge => exact absurd (Prod.mk.inj h).1 (by simp)

/-- Without a failing write, `write_fmt` makes the writes of its arguments and ends as they do. -/
theorem io_writeFmt_fine (hW : NoErr (ErrorTrap W)) (x : Arguments) (w : W) (w' : ErrorTrap W)
    (h : writeChunks (textOf x) (ErrorTrap.new w) = (.ok (), w')) :
    IoWrite.writeFmt x w = (toldIo (endOf x), w'.inner) := by
  have he := trap_keeps _ _ _ h
  unfold IoWrite.writeFmt
  rw [Write.writeFmt_noErr hW, show (denote x).1 = textOf x from rfl, h, show (denote x).2 = endOf x from rfl]
  cases hd : endOf x with
  | ok u => rfl
  | err u => simp only [afterChunks, toldIo, ErrorTrap.takeError, he]; rfl
  | panic => rfl
  | diverge => rfl

end

section
variable {T : Type} [StdIoWrite T]

/-- C85 for `io::Ansi` on a stream that takes parts and interrupts as it likes but neither fails nor hangs: every
call returns what its own values make of it, a value's own failure as the error `formatter error`; `finish`
succeeds; and the stream has got the bytes of all the texts as `Ansi` writes them. -/
theorem C85_io_ansi (k : IoSink T) (hn : ReliableStream T) (hf : KeepsGoing T) (calls : List Arguments) (t : T) :
    ∃ enough, ∀ fuel, enough ≤ fuel → ∃ b : IoAnsi fuel T, ∃ out,
      (carryOnIo calls (IoAnsi.new t : IoAnsi fuel T)).1 = calls.map (fun x => toldIo (endOf x)) ∧
      IoAnsi.finish (carryOnIo calls (IoAnsi.new t : IoAnsi fuel T)).2 = (.ok (), b) ∧
      k.delivered b.inner = k.delivered t ++ utf8 out ∧
      AnsiFinished stringSink StdString.new (calls.flatMap textOf) out := by
  have key : ∀ (calls : List Arguments) (t : T) (c : Style), ∃ f t' c', ∀ fuel, f ≤ fuel →
      carryOnIo calls (⟨t, c⟩ : IoAnsi fuel T) = (calls.map (fun x => toldIo (endOf x)), ⟨t', c'⟩) ∧
      ∀ o, ∃ o', writeChunks (calls.flatMap textOf) (⟨⟨t, c⟩, o⟩ : ErrorTrap (IoAnsi fuel T)) =
        (.ok (), ⟨⟨t', c'⟩, o'⟩) := by
    intro calls
    induction calls with
    | nil => intro t c; exact ⟨0, t, c, fun _ _ => ⟨rfl, fun o => ⟨o, rfl⟩⟩⟩
    | cons x xs ih =>
      intro t c
      obtain ⟨f1, t1, c1, h1⟩ := IoAnsi.chunks_settle k hn hf (textOf x) t c
      obtain ⟨f2, t2, c2, h2⟩ := ih t1 c1
      refine ⟨max f1 f2, t2, c2, fun fuel hle => ?_⟩
      obtain ⟨g1, g2⟩ := h2 fuel (by omega)
      constructor
      · obtain ⟨o, e⟩ := h1 fuel (by omega) none
        have := io_writeFmt_fine (IoAnsi.trap_noErr (fuel := fuel) k hn) x ⟨t, c⟩ _ e
        simp only [carryOnIo, this, g1, List.map_cons]
      · intro o
        obtain ⟨o1, e1⟩ := h1 fuel (by omega) o
        obtain ⟨o2, e2⟩ := g2 o1
        exact ⟨o2, by rw [List.flatMap_cons, writeChunks_append, e1, ← e2]⟩
  obtain ⟨f1, t1, c1, h1⟩ := key calls t Style.default
  obtain ⟨f2, u, t2, c2, h2⟩ := IoAnsi.finish_settles k hn hf t1 c1
  refine ⟨max f1 f2, fun fuel hle => ?_⟩
  obtain ⟨g1, g2⟩ := h1 fuel (by omega)
  obtain ⟨o, e⟩ := g2 none
  have g : IoAnsi.finish (⟨t1, c1⟩ : IoAnsi fuel T) = (.ok u, ⟨t2, c2⟩) := h2 fuel (by omega)
  have g1' : carryOnIo calls (IoAnsi.new t : IoAnsi fuel T) = (calls.map (fun x => toldIo (endOf x)), ⟨t1, c1⟩) := g1
  refine ⟨⟨t2, c2⟩, _, by rw [g1'], by rw [g1']; exact g, ?_,
    (ansiFinished_exists stringSink stringSink_accepting StdString.new (calls.flatMap textOf)).2⟩
  have hemit := (IoAnsi.renders (fuel := fuel) k).writeChunks (calls.flatMap textOf)
    (ErrorTrap.new (IoAnsi.new t : IoAnsi fuel T))
  have e' : writeChunks (calls.flatMap textOf) (ErrorTrap.new (IoAnsi.new t : IoAnsi fuel T)) =
    (.ok (), ⟨⟨t1, c1⟩, o⟩) := e
  rw [e'] at hemit
  have hfin := IoAnsi.finish_emits k (⟨t1, c1⟩ : IoAnsi fuel T)
  rw [g] at hfin
  have e1 : k.delivered t2 = k.delivered t1 ++ _ := hfin.1
  have e2 : k.delivered t1 = k.delivered t ++ _ := hemit.1
  have e3 : c1 = _ := hemit.2
  rw [e1, e2, render_bytes, List.append_assoc]
  simp only [ansiRender, utf8_append, ansiSwitchBytes]
  rw [e3]
  rfl

/-- C85 for `io::Plain`. -/
theorem C85_io_plain (k : IoSink T) (hn : ReliableStream T) (hf : KeepsGoing T) (calls : List Arguments) (t : T) :
    ∃ enough, ∀ fuel, enough ≤ fuel →
      (carryOnIo calls (IoPlain.new t : IoPlain fuel T)).1 = calls.map (fun x => toldIo (endOf x)) ∧
      k.delivered (IoPlain.intoInner (carryOnIo calls (IoPlain.new t : IoPlain fuel T)).2) =
        k.delivered t ++ utf8 ((calls.flatMap textOf).flatMap Prod.fst) := by
  induction calls generalizing t with
  | nil => exact ⟨0, fun _ _ => ⟨rfl, by simp [carryOnIo, utf8]; rfl⟩⟩
  | cons x xs ih =>
    obtain ⟨f1, t1, h1⟩ := IoPlain.chunks_settle k hn hf (textOf x) t
    obtain ⟨f2, h2⟩ := ih t1
    refine ⟨max f1 f2, fun fuel hle => ?_⟩
    obtain ⟨g1, g2⟩ := h2 fuel (by omega)
    obtain ⟨o, e⟩ := h1 fuel (by omega) none
    have e' : writeChunks (textOf x) (ErrorTrap.new (IoPlain.new t : IoPlain fuel T)) = (.ok (), ⟨⟨t1⟩, o⟩) := e
    have w := io_writeFmt_fine (IoPlain.trap_noErr (fuel := fuel) k hn) x (IoPlain.new t) _ e'
    have hemit := IoPlain.chunks_emits k (textOf x) (ErrorTrap.new (IoPlain.new t : IoPlain fuel T))
    rw [e'] at hemit
    have e1 : k.delivered t1 = k.delivered t ++ _ := hemit.1
    constructor
    · simp only [carryOnIo, w, List.map_cons]
      exact congrArg _ g1
    · simp only [carryOnIo, w]
      refine g2.trans ?_
      rw [e1, List.flatMap_cons, List.flatMap_append, utf8_append, List.append_assoc, text_chunks]

end

/-- A call that writes a red `a` and then fails, one that writes a bold `<` and then panics inside a blue part,
and one that is fine. -/
def threeCalls : List Arguments :=
  [⟨.within ⟨fun s => { s with foreground := .Red }⟩ (.writeStr ['a'] fun _ => .done .err) .done⟩,
   ⟨.within ⟨fun s => { s with intensity := .Bold }⟩
     (.writeStr ['<'] fun _ => .within ⟨fun s => { s with foreground := .Blue }⟩
       (.writeStr ['é'] fun _ => .panic) .done) .done⟩,
   ⟨.writeStr ['c'] .done⟩]

/-- What becomes of them on each writer. -/
example : threeCalls.map endOf = [.err (), .panic, .ok ()] ∧
    (let w := carryOn threeCalls (Ansi.new StdString.new)
     w.1 = [.err (), .panic, .ok ()] ∧
     (Ansi.finish w.2).2.inner.chars = str "\x1b[31ma\x1b[39;1m<\x1b[34mé\x1b[0mc") ∧
    (let w := carryOn threeCalls (Html.new StdString.new)
     (Html.finish w.2).2.inner.chars = str ("<span style=color:red>a</span><span style=font-weight:bolder>&lt;</span>" ++
       "<span style=color:blue;font-weight:bolder>é</span>c")) ∧
    (carryOn threeCalls (Plain.new StdString.new)).2.inner.chars = ['a', '<', 'é', 'c'] := by decide +kernel

/-- On a stream that takes two bytes, is interrupted, takes one, and then all. -/
example : ReliableStream ScheduleSink ∧ KeepsGoing ScheduleSink ∧
    (let w := carryOnIo threeCalls (IoAnsi.new ⟨[some 1, none, some 0], []⟩ : IoAnsi 20 ScheduleSink)
     w.1 = [.err ⟨.Other, "formatter error"⟩, .panic, .ok ()] ∧
     (IoAnsi.finish w.2).2.inner.got = utf8 (str "\x1b[31ma\x1b[39;1m<\x1b[34mé\x1b[0mc")) :=
  ⟨scheduleSink_reliable, scheduleSink_keepsGoing, by decide +kernel⟩

example : NoEsc (threeCalls.flatMap textOf) ∧ NoBoldFaint (flatten (threeCalls.flatMap textOf)) := by
  refine ⟨by simp [NoEsc, threeCalls, textOf, writes, ended, ESC], (noBoldFaint_from _).2 ?_⟩
  simp [threeCalls, textOf, writes, ended, flatten, paint, NoBoldFaintFrom, BoldFaint, Style.default, Style.with]

end Stylish.Props
