import Verif.Props.Api
import Verif.Props.Io
/-
C54: nothing is held back. C55: appending to an attributed string.
-/

namespace Stylish.Props

open Spec Spec.Syntax

/-! ## C54 -/

variable {T : Type} [FmtWrite T]

/-- C54 for `Plain`, `Ansi` and `Html`: as soon as the writes have returned `Ok`, with no `finish` and whatever
the stream, all text has reached the stream: for `Plain` the text itself; for `Ansi` with escape sequences
around it; for `Html` a page that is complete but for at most one closing tag, and with it reads back as the
styled characters written. -/
theorem C54_delivered (k : FmtSink T) (t : T) (chs : List Chunk) :
    (∀ t', writeChunks chs (Plain.new t) = (.ok (), ⟨t'⟩) →
      k.delivered t' = k.delivered t ++ chs.flatMap Prod.fst) ∧
    (∀ out, AnsiWrote k t chs out → NoEsc chs → stripSgr out = chs.flatMap Prod.fst) ∧
    (∀ out, HtmlWrote k t chs out →
      ∃ close, close ∈ [[], str "</span>"] ∧ HtmlReader.read (out ++ close) = some (flatten chs)) := by
  refine ⟨fun t' h => C10_plain_writes k chs t t' h,
    fun out h hesc => (C18_any_stream k t chs out hesc).1 h, fun out h => ?_⟩
  refine ⟨htmlSwitch (lastStyle Style.default (flatten chs)) Style.default, ?_, ?_⟩
  · simp only [htmlSwitch, if_true, htmlClose]
    split <;> simp
  · rw [htmlWrote_eq k t chs out h]
    exact read_htmlRender _

/-- C54 for `io::Ansi`: when `write_fmt` returns `Ok`, on any stream that obeys the contract of `io::Write` and
under any schedule of short writes and interruptions, all text has reached the stream. -/
theorem C54_io_ansi {U : Type} [StdIoWrite U] (k : IoSink U) (args : Arguments) (hp : Propagates args.f)
    (log : List Chunk) (hargs : writes args.f Style.default FormatterArgs.default = (log, .ok ()))
    (hesc : NoEsc log) (t : U) (fuel : Nat) (a : IoAnsi fuel U)
    (h : IoWrite.writeFmt args (IoAnsi.new t) = (.ok (), a)) :
    ∃ s, k.delivered a.inner = k.delivered t ++ utf8 s ∧ stripSgr s = log.flatMap Prod.fst := by
  obtain ⟨b, h1, -, h2⟩ := C26_before_finish k args hp t fuel a h
  refine ⟨b.inner.chars, h2, ?_⟩
  have hacc : Accepting (Ansi StdString) := Ansi.accepting stringSink_accepting
  unfold Ansi.writeFmt at h1
  rw [Write.writeFmt_accepting hacc, denote, hargs] at h1
  have hb := (Prod.mk.inj h1).2
  refine (C18_any_stream stringSink StdString.new log _ hesc).1 ⟨b, ?_, rfl⟩
  rw [← hb]
  exact Prod.ext (by rw [Accepting.writeChunks hacc]) rfl

/-- C54 for `io::Plain`. -/
theorem C54_io_plain {U : Type} [StdIoWrite U] (k : IoSink U) (args : Arguments) (hp : Propagates args.f)
    (log : List Chunk) (hargs : writes args.f Style.default FormatterArgs.default = (log, .ok ()))
    (t : U) (fuel : Nat) (a : IoPlain fuel U) (h : IoWrite.writeFmt args (IoPlain.new t) = (.ok (), a)) :
    k.delivered a.inner = k.delivered t ++ utf8 (log.flatMap Prod.fst) := by
  obtain ⟨p, -, h2, h3⟩ := C29_io_plain k args hp _ (C10_plain_format args log hargs) t fuel _ a h
  rw [h2, h3 rfl]

/-- C54: `flush` flushes the stream inside, once, and does nothing else: its result is the stream's, and the
style in force is kept. -/
theorem C54_flush {U : Type} [StdIoWrite U] (fuel : Nat) (t : U) (st : Style) :
    IoWrite.flush (⟨t, st⟩ : IoAnsi fuel U) =
      ((StdIoWrite.flush t).1, ⟨(StdIoWrite.flush t).2, st⟩) ∧
    IoWrite.flush (⟨t⟩ : IoPlain fuel U) = ((StdIoWrite.flush t).1, ⟨(StdIoWrite.flush t).2⟩) :=
  ⟨rfl, rfl⟩

/-- Example: before `finish`, a span is open. -/
example : HtmlWrote stringSink StdString.new [(['a'], Style.default), (['<'], ⟨.Red, .Default, .Normal⟩)]
      (str "a<span style=color:red>&lt;") ∧
    HtmlReader.read (str "a<span style=color:red>&lt;" ++ str "</span>") =
      some [('a', Style.default), ('<', ⟨.Red, .Default, .Normal⟩)] :=
  ⟨⟨_, rfl, by decide⟩, by decide +kernel⟩

/-! ## C55 -/

/-- C55: writing any arguments (`write!(s, ..)`) to an attributed string `s` that holds some styled characters
returns what the formatting returns, and afterwards `s` holds these characters followed by the ones the
formatting wrote, each in its own style, seen in any context. -/
theorem C55_append (history : List Chunk) (args : Arguments) (log : List Chunk) (out : Res FmtError Unit)
    (hargs : writes args.f Style.default FormatterArgs.default = (log, out)) :
    ∃ s r, writeChunks history StyString.new = (.ok (), s) ∧ Write.writeFmt args s = (out, r) ∧
      ∀ st a, ∃ log', writes (Display.fmt r) st a = (log', .ok ()) ∧
        flatten log' = flatten history ++ flatten log := by
  have h1 : writeChunks history StyString.new = (.ok (), (writeChunks history StyString.new).2) :=
    Prod.ext (by rw [Accepting.writeChunks StyString.accepting]) rfl
  refine ⟨_, (writeChunks log (writeChunks history StyString.new).2).2, h1, ?_, fun st a => ?_⟩
  · rw [Write.writeFmt_accepting StyString.accepting, denote, hargs]
  · obtain ⟨s, hs, log', hl, hf⟩ := C11_string_remembers (history ++ log) st a
    rw [writeChunks_append, h1] at hs
    have hs : writeChunks log (writeChunks history StyString.new).2 = (.ok (), s) := hs
    rw [hs]
    refine ⟨log', hl, ?_⟩
    rw [hf]
    simp [flatten]

/-- C55: writing an attributed string to another one (`write!(s, "{:s}", t)`) concatenates their styled
characters. -/
theorem C55_append_string {E : Env} (hE : E.Lawful) (hs ht : List Chunk) (s t : StyString)
    (es : writeChunks hs StyString.new = (.ok (), s)) (et : writeChunks ht StyString.new = (.ok (), t)) :
    ∃ r, writeMacro E Write.writeFmt s (str "{:s}") [.positional ⟨fun _ _ => .done .ok, Display.fmt t⟩] noScope =
        .ok (.ok (), r) ∧
      ∀ st a, ∃ log, writes (Display.fmt r) st a = (log, .ok ()) ∧ flatten log = flatten hs ++ flatten ht := by
  obtain ⟨x, hx, hw⟩ := formatArgs_self hE ⟨fun _ _ => .done .ok, Display.fmt t⟩ noScope
  obtain ⟨t', et', lt, hlt, hft⟩ := C11_string_remembers ht Style.default FormatterArgs.default
  rw [et] at et'
  obtain rfl := (Prod.mk.inj et').2
  have hw' : writes x.f Style.default FormatterArgs.default = (lt, .ok ()) := by
    rw [hw]
    exact hlt
  obtain ⟨s', r, hs', hr, hd⟩ := C55_append hs x lt (.ok ()) hw'
  rw [es] at hs'
  obtain rfl := (Prod.mk.inj hs').2
  refine ⟨r, ?_, fun st a => ?_⟩
  · unfold writeMacro
    simp only [bind, Except.bind, hx, hr]
    rfl
  · obtain ⟨log, h1, h2⟩ := hd st a
    exact ⟨log, h1, by rw [h2, hft]⟩

/-- Example: the end of the one and the beginning of the other have the same style and become one run. -/
example :
    let s := (writeChunks [(['a'], Style.default), (['b'], ⟨.Red, .Default, .Normal⟩)] StyString.new).2
    let t := (writeChunks [(['c'], ⟨.Red, .Default, .Normal⟩), (['d'], Style.default)] StyString.new).2
    (writeMacro asciiEnv Write.writeFmt s (str "{:s}") [.positional ⟨fun _ _ => .done .ok, Display.fmt t⟩]
      noScope).toOption.map (fun r => (writes (Display.fmt r.2) .default .default).1) =
    some [(['a'], Style.default), (['b', 'c'], ⟨.Red, .Default, .Normal⟩), (['d'], Style.default)] := by
  decide +kernel

end Stylish.Props
