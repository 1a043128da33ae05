import Verif.Lemmas.Vt
import Verif.Props.Ansi
import Verif.Props.IoText
/-
C71: what a video terminal makes of the ANSI output.
-/

namespace Stylish.Props

open Spec Vt

variable {T : Type} [FmtWrite T]

/-! ## C71 -/

theorem plain_ofStyle : Screen.fresh = ⟨.ground, Pen.ofStyle Style.default, []⟩ := rfl

theorem control_of_acts {kind : Kind} {c : Char} (hc : c ∈ acts kind) : isControl c = true := by
  unfold acts at hc
  split at hc
  · revert c; decide
  · revert c; decide

theorem vt_render_exact (kind : Kind) (t : Styled) :
    (Screen.fresh.feed kind (renderWith ansiSwitch plainEnc Style.default t)).events = t.map expected ↔
      (∀ x ∈ t, x.1 ∉ acts kind) ∧ (kind.boldFaint = .exclusive ∨ ¬ Muddled t) := by
  by_cases hin : ∀ x ∈ t, x.1 ∉ acts kind
  · have hm : ¬ Muddled t ↔ seen (runFlags (sinceNormal [])) t = t.map expected := by
      rw [Vt.seen_iff t []]
      unfold Muddled
      constructor
      · intro h pre c st post e hc hst x hx
        exact Classical.byContradiction fun hne => h ⟨pre, c, st, post, e, hc, hst, x, by simpa using hx, hne⟩
      · rintro h ⟨pre, c, st, post, e, hc, hst, x, hx, hne⟩
        exact hne (h pre c st post e hc hst x (by simpa using hx))
    cases hk : kind.boldFaint with
    | exclusive =>
      rw [plain_ofStyle, Vt.feed_render kind Style.default t [] hin (.inl hk)]
      simpa using fun a b h => hin (a, b) h
    | independent =>
      have e := Vt.feed_render_flags kind hk Style.default t [] (false, false) rfl hin
      have e2 : (⟨.ground, Vt.flagPen Style.default (false, false), []⟩ : Screen) = Screen.fresh := rfl
      rw [e2] at e
      rw [e, hm]
      simpa [runFlags, sinceNormal] using fun _ a b h => hin (a, b) h
  · refine ⟨fun h => absurd ?_ hin, fun h => absurd h.1 hin⟩
    intro x hx hc
    have hno := Vt.feed_no_introducer kind (renderWith ansiSwitch plainEnc Style.default t) Screen.fresh
      (fun _ _ h => nomatch h) x.1 hc
    rw [h] at hno
    refine hno (List.mem_map.2 ⟨x, hx, ?_⟩)
    simp [expected, control_of_acts hc]

/-- C71: what a video terminal makes of the output is exactly what should happen, every character shown in the pen of
its style (or acted on, if it is a control character) and nothing else, if and only if the text has no control
character that begins something longer on this kind of terminal, and either bold and faint exclude each other or
no character to be shown follows, without one in normal intensity in between, a character of the other intensity.
At every moment; `finish` changes nothing about it. -/
theorem C71_exact (k : FmtSink T) (t : T) (chs : List Chunk) (out : Str)
    (h : AnsiWrote k t chs out ∨ AnsiFinished k t chs out) (kind : Kind) :
    (Screen.fresh.feed kind out).events = (flatten chs).map expected ↔
      (∀ x ∈ flatten chs, x.1 ∉ acts kind) ∧ (kind.boldFaint = .exclusive ∨ ¬ Muddled (flatten chs)) := by
  rcases h with h | h
  · rw [ansiWrote_eq k t chs out h]
    exact vt_render_exact kind _
  · rw [ansiFinished_eq k t chs out h, ansiRender, Vt.feed_append, ← vt_render_exact kind]
    by_cases hin : ∀ x ∈ flatten chs, x.1 ∉ acts kind
    · obtain ⟨p, es, h1, h2, h3⟩ := Vt.feed_render_ground kind Style.default (flatten chs) Pen.plain [] hin
        (fun _ => rfl)
      obtain ⟨p', h4, -⟩ := Vt.feed_switch_ground kind (lastStyle Style.default (flatten chs)) Style.default p es h3
      have e : Screen.fresh = ⟨.ground, Pen.plain, []⟩ := rfl
      rw [e, h1, h4]
    · have wrong : ∀ s : Str, (Screen.fresh.feed kind s).events ≠ (flatten chs).map expected := by
        intro s hs
        refine hin fun x hx hc => ?_
        have hno := Vt.feed_no_introducer kind s Screen.fresh (fun _ _ h => nomatch h) x.1 hc
        rw [hs] at hno
        exact hno (List.mem_map.2 ⟨x, hx, by simp [expected, control_of_acts hc]⟩)
      rw [← Vt.feed_append]
      exact ⟨fun h => absurd h (wrong _), fun h => absurd h (wrong _)⟩

/-- C71: text without control characters, in at most one of bold and faint, is right on every kind of terminal. -/
theorem C71_shows (k : FmtSink T) (t : T) (chs : List Chunk) (out : Str)
    (h : AnsiWrote k t chs out ∨ AnsiFinished k t chs out) (kind : Kind)
    (hc : ∀ x ∈ flatten chs, isControl x.1 = false)
    (hb : (∀ x ∈ flatten chs, x.2.intensity ≠ .Bold) ∨ (∀ x ∈ flatten chs, x.2.intensity ≠ .Faint)) :
    (Screen.fresh.feed kind out).events = (flatten chs).map fun x => .print x.1 (.ofStyle x.2) := by
  rw [(C71_exact k t chs out h kind).2]
  · refine List.map_congr_left fun x hx => ?_
    simp [expected, hc x hx]
  · refine ⟨fun x hx hm => by simpa [hc x hx] using control_of_acts hm, .inr ?_⟩
    rintro ⟨pre, c, st, post, e, -, hst, x, hx, hne⟩
    have h1 := Vt.mem_sinceNormal hx
    have h2 : x ∈ flatten chs := by
      rw [e]
      refine List.mem_append_left _ ?_
      have := (List.takeWhile_sublist _).subset hx
      simpa using this
    have h3 : (c, st) ∈ flatten chs := by rw [e]; simp
    rcases hb with hb | hb
    · have a := hb _ h2
      have b := hb _ h3
      cases h4 : x.2.intensity <;> cases h5 : st.intensity <;> simp_all
    · have a := hb _ h2
      have b := hb _ h3
      cases h4 : x.2.intensity <;> cases h5 : st.intensity <;> simp_all

/-- C71: after `finish` the terminal is as it was after power-up, and it has seen the characters of the text and
nothing else, whatever happened with bold and faint. Before `finish` no control sequence is left unfinished. -/
theorem C71_resets (k : FmtSink T) (t : T) (chs : List Chunk) (out : Str) (kind : Kind)
    (hin : ∀ x ∈ flatten chs, x.1 ∉ acts kind) :
    (AnsiFinished k t chs out →
      (Screen.fresh.feed kind out).state = .ground ∧ (Screen.fresh.feed kind out).pen = Pen.plain ∧
      chars (Screen.fresh.feed kind out).events = text (flatten chs)) ∧
    (AnsiWrote k t chs out →
      (Screen.fresh.feed kind out).state = .ground ∧
      chars (Screen.fresh.feed kind out).events = text (flatten chs)) := by
  obtain ⟨p, es, h1, h2, h3⟩ := Vt.feed_render_ground kind Style.default (flatten chs) Pen.plain [] hin
    (fun _ => rfl)
  obtain ⟨p', h4, h5⟩ := Vt.feed_switch_ground kind (lastStyle Style.default (flatten chs)) Style.default p es h3
  have e : Screen.fresh = ⟨.ground, Pen.plain, []⟩ := rfl
  constructor
  · intro h
    rw [ansiFinished_eq k t chs out h, ansiRender, Vt.feed_append, e, h1, h4]
    exact ⟨rfl, h5 rfl, h2⟩
  · intro h
    rw [ansiWrote_eq k t chs out h, e, h1]
    exact ⟨rfl, h2⟩

/-- C71 for `ansi::format`. -/
theorem C71_format (args : Arguments) (log : List Chunk) (out : Str)
    (hargs : writes args.f Style.default FormatterArgs.default = (log, .ok ()))
    (hout : ansiFormat args = .ok out) (kind : Kind) :
    (Screen.fresh.feed kind out).events = (flatten log).map expected ↔
      (∀ x ∈ flatten log, x.1 ∉ acts kind) ∧ (kind.boldFaint = .exclusive ∨ ¬ Muddled (flatten log)) := by
  rw [ansiFormat_eq, denote, hargs] at hout
  simp only [formatOutcome, Res.ok.injEq] at hout
  have h := (ansiFinished_exists stringSink stringSink_accepting StdString.new log).2
  rw [hout] at h
  exact C71_exact stringSink StdString.new log out (.inr h) kind

/-- C71 for `io::Ansi`: the bytes sent, read as UTF-8. -/
theorem C71_io {U : Type} [StdIoWrite U] (k : IoSink U) (t : U) (calls : List Arguments) (logs : List (List Chunk))
    (hl : Logs calls logs) (bytes : Bytes) (h : IoAnsiFmtSent k t calls bytes ∨ IoAnsiFmtFinished k t calls bytes)
    (kind : Kind) :
    ∃ out, decodeUtf8 bytes = some out ∧
      ((Screen.fresh.feed kind out).events = (flatten logs.flatten).map expected ↔
        (∀ x ∈ flatten logs.flatten, x.1 ∉ acts kind) ∧
          (kind.boldFaint = .exclusive ∨ ¬ Muddled (flatten logs.flatten))) := by
  rcases h with h | h
  · obtain ⟨out, h1, h2⟩ := C65_ansi_is_text k t calls logs hl bytes h
    exact ⟨out, h1, C71_exact _ _ _ _ (.inl h2) kind⟩
  · obtain ⟨out, h1, h2⟩ := C65_ansi_finished_is_text k t calls logs hl bytes h
    exact ⟨out, h1, C71_exact _ _ _ _ (.inr h2) kind⟩

/-! ### Samples and counterexamples -/

/-- Text in several styles with line breaks, the hypotheses met; and what the terminal makes of it. -/
example :
    let chs : List Chunk := [(str "a\n", ⟨.Red, .BrightBlue, .Bold⟩), (str "é", ⟨.Red, .Default, .Normal⟩),
      (str "🦀", ⟨.BrightWhite, .Default, .Faint⟩)]
    (∃ out, AnsiFinished stringSink StdString.new chs out) ∧ ¬ Muddled (flatten chs) ∧
    (∀ kind, ∀ x ∈ flatten chs, x.1 ∉ acts kind) ∧
    (flatten chs).map expected =
      [.print 'a' { Pen.plain with fg := .indexed 1, bg := .indexed 12, bold := true }, .execute '\n',
       .print 'é' { Pen.plain with fg := .indexed 1 }, .print '🦀' { Pen.plain with fg := .indexed 15, faint := true }] := by
  refine ⟨⟨_, (ansiFinished_exists stringSink stringSink_accepting StdString.new _).2⟩, ?_, ?_, by decide⟩
  · have h := (vt_render_exact ⟨.independent, true⟩ (flatten [(str "a\n", ⟨.Red, .BrightBlue, .Bold⟩),
      (str "é", ⟨.Red, .Default, .Normal⟩), (str "🦀", ⟨.BrightWhite, .Default, .Faint⟩)])).1 (by decide +kernel)
    exact h.2.resolve_left (by decide)
  · rintro ⟨b, c⟩
    cases b <;> cases c <;> decide

/-- The terminal itself reads other things too: colours by number and by red, green, blue, sequences that are not
for styling, strings, controls inside a sequence, C1. -/
example : let vt := Screen.fresh.feed ⟨.independent, true⟩
    (vt (str "\x1b[1;38;5;200;48:2::1:2:3;4mx")).events =
      [.print 'x' { Pen.plain with bold := true, underline := true, fg := .indexed 200, bg := .rgb 1 2 3 }] ∧
    (vt (str "\x1b[?25l\x1b(B\x1b]0;title\x07y\x1bPq#0\x1b\\z")).events =
      [.csi ['?'] (str "25") [] 'l', .esc ['('] 'B', .print 'y' Pen.plain, .esc [] '\\', .print 'z' Pen.plain] ∧
    (vt (str "\x1b[3\n1mr\u009b0md\x1b[mx")).events =
      [.execute '\n', .print 'r' { Pen.plain with fg := .indexed 1 }, .print 'd' Pen.plain, .print 'x' Pen.plain] := by
  decide +kernel

/-- Not only ESC but also U+009B in the text is obeyed, on terminals which know C1: the text is red, and neither
shows. -/
theorem C71_c1_counterexample :
    let chs : List Chunk := [(str "\u009b31mx", Style.default)]
    ∃ out, AnsiFinished stringSink StdString.new chs out ∧
      (Screen.fresh.feed ⟨.exclusive, true⟩ out).events = [.print 'x' { Pen.plain with fg := .indexed 1 }] ∧
      (Screen.fresh.feed ⟨.exclusive, true⟩ out).pen ≠ Pen.plain := by
  refine ⟨str "\u009b31mx", ?_, by decide +kernel, by decide +kernel⟩
  have h := (ansiFinished_exists stringSink stringSink_accepting StdString.new [(str "\u009b31mx", Style.default)]).2
  have e : ansiRender (flatten [(str "\u009b31mx", Style.default)]) = str "\u009b31mx" := by decide +kernel
  rwa [e] at h

/-- A text to which bold and faint happen in the wrong order, shown wrong; and one where only a line break is
concerned, shown right. -/
theorem C71_muddled_counterexample :
    Muddled (flatten [(['a'], ⟨.Default, .Default, .Bold⟩), (['\n'], ⟨.Default, .Default, .Bold⟩),
      (['b'], ⟨.Default, .Default, .Faint⟩)]) ∧
    ¬ Muddled (flatten [(['a'], ⟨.Default, .Default, .Bold⟩), (['\n'], ⟨.Default, .Default, .Faint⟩),
      (['b'], ⟨.Default, .Default, .Normal⟩)]) := by
  constructor
  · exact ⟨[('a', ⟨.Default, .Default, .Bold⟩), ('\n', ⟨.Default, .Default, .Bold⟩)], 'b', _, [], rfl, by decide,
      by decide, ('a', ⟨.Default, .Default, .Bold⟩), by decide, by decide⟩
  · have h := (vt_render_exact ⟨.independent, true⟩ (flatten [(['a'], ⟨.Default, .Default, .Bold⟩),
      (['\n'], ⟨.Default, .Default, .Faint⟩), (['b'], ⟨.Default, .Default, .Normal⟩)])).1 (by decide +kernel)
    exact h.2.resolve_left (by decide)

end Stylish.Props
