import Verif.Lemmas.Ansi
import Verif.Props.Text
/-
Properties of the ANSI backend: C14 - C18.
-/

namespace Stylish.Props

open Spec

variable {T : Type} [FmtWrite T]

/-- `out` is what reached the stream when the writes `chs` were made, successfully, on a new `Ansi` around
the stream `t`. -/
def AnsiWrote (k : FmtSink T) (t : T) (chs : List Chunk) (out : Str) : Prop :=
  ∃ a, writeChunks chs (Ansi.new t) = (.ok (), a) ∧ k.delivered a.inner = k.delivered t ++ out

/-- The same, followed by a successful `finish`. -/
def AnsiFinished (k : FmtSink T) (t : T) (chs : List Chunk) (out : Str) : Prop :=
  ∃ a b, writeChunks chs (Ansi.new t) = (.ok (), a) ∧ Ansi.finish a = (.ok (), b) ∧
    k.delivered b.inner = k.delivered t ++ out

/-- No text contains the escape character. -/
def NoEsc (chs : List Chunk) : Prop := ∀ ch ∈ chs, ESC ∉ ch.1

/-- No character in bold is directly followed by one in faint, or the other way round. -/
def NoBoldFaint (t : Styled) : Prop :=
  ∀ pre a b post, t = pre ++ a :: b :: post →
    ¬ ((a.2.intensity = .Bold ∧ b.2.intensity = .Faint) ∨
       (a.2.intensity = .Faint ∧ b.2.intensity = .Bold))

/-- How styled characters should look on a terminal. -/
def shouldLook (t : Styled) : List (Char × Attrs) := t.map (fun x => (x.1, Attrs.ofStyle x.2))

theorem ansiWrote_eq (k : FmtSink T) (t : T) (chs : List Chunk) (out : Str)
    (h : AnsiWrote k t chs out) :
    out = renderWith ansiSwitch plainEnc Style.default (flatten chs) := by
  obtain ⟨a, h1, h2⟩ := h
  have := (Ansi.renders k).writeChunks chs (Ansi.new t)
  rw [h1] at this
  have h3 : k.delivered a.inner = k.delivered t ++ _ := this.1
  rw [h2] at h3
  exact List.append_cancel_left h3

theorem ansiFinished_eq (k : FmtSink T) (t : T) (chs : List Chunk) (out : Str)
    (h : AnsiFinished k t chs out) : out = ansiRender (flatten chs) := by
  obtain ⟨a, b, h1, h2, h3⟩ := h
  have e := (Ansi.renders k).writeChunks chs (Ansi.new t)
  rw [h1] at e
  have e1 : k.delivered a.inner = k.delivered t ++ _ := e.1
  have e2 : a.current = _ := e.2
  have f := Ansi.finish_emits k a
  rw [h2] at f
  have f1 : k.delivered b.inner = k.delivered a.inner ++ _ := f.1
  rw [h3, e1, List.append_assoc] at f1
  rw [List.append_cancel_left f1, e2]
  rfl

/-- On a stream that accepts everything, all writes and `finish` succeed, so the hypotheses of the theorems
below are met by every list of writes. -/
theorem ansiFinished_exists (k : FmtSink T) (hT : AcceptingSink T) (t : T) (chs : List Chunk) :
    AnsiWrote k t chs (renderWith ansiSwitch plainEnc Style.default (flatten chs)) ∧
    AnsiFinished k t chs (ansiRender (flatten chs)) := by
  have hacc : Accepting (Ansi T) := Ansi.accepting hT
  have h1 : writeChunks chs (Ansi.new t) = (.ok (), (writeChunks chs (Ansi.new t)).2) :=
    Prod.ext (by rw [Accepting.writeChunks hacc]) rfl
  have h2 := (Ansi.renders k).writeChunks_accepting hacc chs (Ansi.new t)
  obtain ⟨u, b, h3⟩ := Ansi.finish_neverFails hT (writeChunks chs (Ansi.new t)).2
  have h4 := Ansi.finish_emits k (writeChunks chs (Ansi.new t)).2
  rw [h3] at h4
  have h5 : k.delivered b.inner = Ansi.del k (writeChunks chs (Ansi.new t)).2 ++ _ := h4.1
  rw [h2.1, h2.2] at h5
  refine ⟨⟨_, h1, h2.1⟩, _, b, h1, h3, ?_⟩
  rw [h5, List.append_assoc]
  rfl

theorem noEsc_flatten (chs : List Chunk) (h : NoEsc chs) : ∀ x ∈ flatten chs, x.1 ≠ ESC := by
  intro x hx
  simp only [flatten, List.mem_flatMap, paint, List.mem_map] at hx
  obtain ⟨ch, hch, c, hc, rfl⟩ := hx
  rintro rfl
  exact h ch hch hc

theorem noBoldFaint_from (t : Styled) : NoBoldFaint t ↔ NoBoldFaintFrom Style.default t := by
  have key : ∀ (t : Styled) (x : Char × Style), NoBoldFaint (x :: t) ↔ NoBoldFaintFrom x.2 t := by
    intro t
    induction t with
    | nil =>
      intro x
      refine ⟨fun _ => trivial, fun _ pre a b post h => ?_⟩
      have := congrArg List.length h
      simp at this
      omega
    | cons y t ih =>
      intro x
      obtain ⟨c, st⟩ := y
      constructor
      · intro h
        refine ⟨h [] x (c, st) t rfl, (ih (c, st)).1 fun pre a b post e => ?_⟩
        exact h (x :: pre) a b post (by rw [e]; rfl)
      · rintro ⟨h1, h2⟩ pre a b post e
        cases pre with
        | nil =>
          simp only [List.nil_append, List.cons.injEq] at e
          obtain ⟨rfl, rfl, -⟩ := e
          exact h1
        | cons p pre =>
          simp only [List.cons_append, List.cons.injEq] at e
          exact (ih (c, st)).2 h2 pre a b post e.2
  cases t with
  | nil =>
    refine ⟨fun _ => trivial, fun _ pre a b post h => ?_⟩
    simp at h
  | cons x t =>
    rw [key]
    obtain ⟨c, st⟩ := x
    refine ⟨fun h => ⟨?_, h⟩, fun h => h.2⟩
    simp [BoldFaint, Style.default]

/-! ## C14

Full statement (false of the code): for every list of writes and on every terminal, the screen shows
exactly the characters written, each with its style. It fails for text containing ESC (not escaped, see
`C14_esc_counterexample`) and for a direct change between bold and faint on terminals where these are
independent flags (see `C14_bold_faint_counterexample`). -/

/-- C14 (partial: text without ESC; and either a terminal on which bold and faint exclude each other, or no
direct change between bold and faint): the screen shows exactly the characters written, each in its style.
This holds at every moment, also before `finish`. -/
theorem C14_terminal_shows_styles_partial (k : FmtSink T) (t : T) (chs : List Chunk) (out : Str)
    (h : AnsiWrote k t chs out) (kind : TermKind) (hesc : NoEsc chs)
    (hkind : kind = .exclusive ∨ NoBoldFaint (flatten chs)) :
    (Terminal.fresh.feed kind out).screen = shouldLook (flatten chs) ∧
    (Terminal.fresh.feed kind out).mode = .ground := by
  rw [ansiWrote_eq k t chs out h]
  have := feed_render kind Style.default (flatten chs) [] (noEsc_flatten chs hesc)
    (hkind.imp id (noBoldFaint_from _).1)
  have e : Terminal.fresh = ⟨.ground, Attrs.ofStyle Style.default, []⟩ := rfl
  rw [e, this]
  exact ⟨by simp [look, shouldLook], rfl⟩

/-- A terminal never shows the escape character. -/
theorem screen_no_esc (kind : TermKind) (s : Str) (t : Terminal) (h : ∀ x ∈ t.screen, x.1 ≠ ESC) :
    ∀ x ∈ (t.feed kind s).screen, x.1 ≠ ESC := by
  induction s generalizing t with
  | nil => exact h
  | cons c s ih =>
    refine ih (t.step kind c) ?_
    unfold Terminal.step
    split
    · split
      · exact h
      · rename_i hc
        intro x hx
        rcases List.mem_append.1 hx with hx | hx
        · exact h x hx
        · rw [List.mem_singleton.1 hx]
          exact hc
    · split
      · exact h
      · split <;> exact h
    · split
      · exact h
      · split
        · exact h
        · split
          · exact h
          · split <;> exact h

/-- C14: exactly when it works. For every list of writes, the screen is right on every kind of terminal if
and only if the text has no ESC and there is no direct change between bold and faint. -/
theorem C14_exact (k : FmtSink T) (t : T) (chs : List Chunk) (out : Str)
    (h : AnsiWrote k t chs out) :
    (∀ kind, (Terminal.fresh.feed kind out).screen = shouldLook (flatten chs)) ↔
      NoEsc chs ∧ NoBoldFaint (flatten chs) := by
  constructor
  · intro hs
    have hs := hs .independent
    have hesc : NoEsc chs := by
      intro ch hch hE
      have h1 := screen_no_esc .independent out Terminal.fresh (by simp [Terminal.fresh])
      rw [hs] at h1
      refine h1 (ESC, Attrs.ofStyle ch.2) ?_ rfl
      refine List.mem_map.2 ⟨(ESC, ch.2), ?_, rfl⟩
      simp only [flatten, List.mem_flatMap, paint, List.mem_map]
      exact ⟨ch, hch, ESC, hE, rfl⟩
    refine ⟨hesc, ?_⟩
    rw [ansiWrote_eq k t chs out h] at hs
    refine (noBoldFaint_from _).2 (feed_render_iff Style.default (flatten chs) []
      (noEsc_flatten chs hesc) [] ⟨[], ?_⟩)
    rw [List.append_nil]
    have e : Terminal.fresh = ⟨.ground, Attrs.ofStyle Style.default, []⟩ := rfl
    rw [e] at hs
    simpa [look, shouldLook] using hs
  · rintro ⟨hesc, hn⟩ kind
    exact (C14_terminal_shows_styles_partial k t chs out h kind hesc (Or.inr hn)).1

/-- C14 for `ansi::format`: the same for the string returned for any arguments. -/
theorem C14_format_partial (args : Arguments) (log : List Chunk) (out : Str)
    (hargs : writes args.f Style.default FormatterArgs.default = (log, .ok ()))
    (hout : ansiFormat args = .ok out) (kind : TermKind) (hesc : NoEsc log)
    (hkind : kind = .exclusive ∨ NoBoldFaint (flatten log)) :
    (Terminal.fresh.feed kind out).screen = shouldLook (flatten log) := by
  rw [ansiFormat_eq, denote, hargs] at hout
  simp only [formatOutcome, Res.ok.injEq] at hout
  rw [← hout, ansiRender, feed_append]
  have e : Terminal.fresh = ⟨.ground, Attrs.ofStyle Style.default, []⟩ := rfl
  rw [e, feed_render kind Style.default (flatten log) [] (noEsc_flatten log hesc)
    (hkind.imp id (noBoldFaint_from _).1), feed_switch kind _ _ _ (Or.inr (by simp [BoldFaint, Style.default]))]
  simp [look, shouldLook]

/-- The negation witness for bold/faint: `a` in bold, then `b` in faint, on an independent terminal:
`b` is shown bold and faint. -/
theorem C14_bold_faint_counterexample :
    let chs : List Chunk := [(['a'], ⟨.Default, .Default, .Bold⟩), (['b'], ⟨.Default, .Default, .Faint⟩)]
    ∃ out, AnsiFinished stringSink StdString.new chs out ∧
      (Terminal.fresh.feed .independent out).screen ≠ shouldLook (flatten chs) ∧
      (Terminal.fresh.feed .independent out).screen =
        [('a', ⟨.Default, .Default, true, false⟩), ('b', ⟨.Default, .Default, true, true⟩)] :=
  ⟨str "\x1b[1ma\x1b[2mb\x1b[0m", ⟨_, _, rfl, rfl, rfl⟩, by decide, by decide⟩

/-- The negation witness for ESC: text that is itself an escape sequence is not shown and changes the
style of the text after it. -/
theorem C14_esc_counterexample :
    let chs : List Chunk := [(str "\x1b[31m", Style.default), (['b'], Style.default)]
    ∃ out, AnsiFinished stringSink StdString.new chs out ∧
      (Terminal.fresh.feed .exclusive out).screen ≠ shouldLook (flatten chs) ∧
      (Terminal.fresh.feed .exclusive out).screen = [('b', ⟨.Red, .Default, false, false⟩)] :=
  ⟨str "\x1b[31mb", ⟨_, _, rfl, rfl, rfl⟩, by decide, by decide⟩

/-- A sample: text in three styles including an empty write and multi-byte characters. -/
def ansiSample : List Chunk :=
  [(['h', 'é'], Style.default), (['🦀'], ⟨.BrightRed, .Blue, .Bold⟩), ([], ⟨.Green, .Green, .Faint⟩),
   (['x'], ⟨.BrightRed, .Default, .Normal⟩), (['y', 'z'], Style.default)]

example : NoEsc ansiSample ∧ NoBoldFaint (flatten ansiSample) ∧
    AnsiFinished stringSink StdString.new ansiSample
      (str "hé\x1b[91;44;1m🦀\x1b[49;22mx\x1b[0myz") :=
  ⟨by unfold NoEsc; decide,
   (noBoldFaint_from _).2 ⟨by simp [BoldFaint, Style.default], by simp [BoldFaint, Style.default],
     by simp [BoldFaint, Style.default], by simp [BoldFaint], by simp [BoldFaint, Style.default],
     by simp [BoldFaint, Style.default], trivial⟩,
   _, _, rfl, rfl, rfl⟩

/-! ## C15 -/

/-- C15: after `finish`, on any terminal, the default attributes are in force, no escape sequence is
pending, and all characters have been shown. (No condition on bold and faint.) -/
theorem C15_finish_resets (k : FmtSink T) (t : T) (chs : List Chunk) (out : Str)
    (h : AnsiFinished k t chs out) (kind : TermKind) (hesc : NoEsc chs) :
    (Terminal.fresh.feed kind out).attrs = Attrs.initial ∧
    (Terminal.fresh.feed kind out).mode = .ground ∧
    (Terminal.fresh.feed kind out).screen.map Prod.fst = text (flatten chs) := by
  rw [ansiFinished_eq k t chs out h, ansiRender, feed_append]
  obtain ⟨a, scr, h1, h2, h3⟩ := feed_render_ground kind Style.default (flatten chs) Attrs.initial []
    (noEsc_flatten chs hesc) (fun _ => rfl)
  have e : Terminal.fresh = ⟨.ground, Attrs.initial, []⟩ := rfl
  rw [e, h1]
  obtain ⟨a', h4, h5⟩ := feed_switch_ground kind (lastStyle Style.default (flatten chs)) Style.default a
    scr h3
  rw [h4]
  exact ⟨h5 rfl, rfl, by simpa using h2⟩

/-- C15 for `ansi::format`: the string it returns leaves the terminal in its default attributes. -/
theorem C15_format (args : Arguments) (log : List Chunk) (out : Str)
    (hargs : writes args.f Style.default FormatterArgs.default = (log, .ok ()))
    (hout : ansiFormat args = .ok out) (kind : TermKind) (hesc : NoEsc log) :
    (Terminal.fresh.feed kind out).attrs = Attrs.initial ∧
    (Terminal.fresh.feed kind out).mode = .ground := by
  rw [ansiFormat_eq, denote, hargs] at hout
  simp only [formatOutcome, Res.ok.injEq] at hout
  have h := (ansiFinished_exists stringSink stringSink_accepting StdString.new log).2
  rw [hout] at h
  have := C15_finish_resets stringSink StdString.new log out h kind hesc
  exact ⟨this.1, this.2.1⟩

/-- C15: if nothing but default-style text (and empty writes) was written, `Ansi` adds nothing at all, and
`finish` adds nothing either. -/
theorem C15_unstyled_adds_nothing (k : FmtSink T) (t : T) (chs : List Chunk) (out : Str)
    (h : AnsiFinished k t chs out) (hd : ∀ ch ∈ chs, ch.1 ≠ [] → ch.2 = ⟨.Default, .Default, .Normal⟩) :
    out = chs.flatMap Prod.fst := by
  rw [ansiFinished_eq k t chs out h, ansiRender]
  have key : ∀ chs : List Chunk, (∀ ch ∈ chs, ch.1 ≠ [] → ch.2 = ⟨.Default, .Default, .Normal⟩) →
      renderWith ansiSwitch plainEnc Style.default (flatten chs) = chs.flatMap Prod.fst ∧
      lastStyle Style.default (flatten chs) = Style.default := by
    intro chs
    induction chs with
    | nil => intro _; exact ⟨rfl, rfl⟩
    | cons ch chs ih =>
      intro hd
      obtain ⟨s, st⟩ := ch
      have ih := ih (fun c hc => hd c (by simp [hc]))
      simp only [flatten_cons, renderWith_append, lastStyle_append, List.flatMap_cons,
        renderWith_paint _ _ ansiSwitch_self, lastStyle_paint]
      by_cases hs : s = []
      · subst hs; simpa using ih
      · have hst : st = Style.default := hd (s, st) (by simp) hs
        subst hst
        have e : s.flatMap plainEnc = s := List.flatMap_singleton' s
        simp [hs, ansiSwitch_self, e, ih]
  rw [(key chs hd).1, (key chs hd).2, ansiSwitch_self, List.append_nil]

example : AnsiFinished stringSink StdString.new
    [(['a'], Style.default), ([], ⟨.Red, .Red, .Bold⟩), (['b'], Style.default)] ['a', 'b'] :=
  ⟨_, _, rfl, rfl, rfl⟩

/-! ## C16 -/

/-- C16: what `Ansi` produces (before and after `finish`) depends only on the styled characters. -/
theorem C16_chunk_insensitive (k : FmtSink T) (t t' : T) (chs chs' : List Chunk) (out out' : Str)
    (hsame : flatten chs = flatten chs') :
    (AnsiWrote k t chs out → AnsiWrote k t' chs' out' → out = out') ∧
    (AnsiFinished k t chs out → AnsiFinished k t' chs' out' → out = out') := by
  refine ⟨fun h h' => ?_, fun h h' => ?_⟩
  · rw [ansiWrote_eq k t chs out h, ansiWrote_eq k t' chs' out' h', hsame]
  · rw [ansiFinished_eq k t chs out h, ansiFinished_eq k t' chs' out' h', hsame]

theorem flatten_split (chs chs' : List Chunk) (s u : Str) (st st' : Style) :
    flatten (chs ++ (s ++ u, st) :: chs') = flatten (chs ++ (s, st) :: ([], st') :: (u, st) :: chs') := by
  simp [paint]

/-- C16: in particular splitting one write in two, with an empty write in any style between them, leaves
what has been written, and what has been written after `finish`, unchanged. -/
theorem C16_split_and_empty (k : FmtSink T) (t t' : T) (chs chs' : List Chunk) (s u : Str) (st st' : Style)
    (out out' : Str) :
    (AnsiWrote k t (chs ++ (s ++ u, st) :: chs') out →
      AnsiWrote k t' (chs ++ (s, st) :: ([], st') :: (u, st) :: chs') out' → out = out') ∧
    (AnsiFinished k t (chs ++ (s ++ u, st) :: chs') out →
      AnsiFinished k t' (chs ++ (s, st) :: ([], st') :: (u, st) :: chs') out' → out = out') :=
  C16_chunk_insensitive k t t' _ _ out out' (flatten_split chs chs' s u st st')

/-- C16 for `ansi::format`: programs that write the same styled characters have the same rendering. -/
theorem C16_format (args args' : Arguments) (log log' : List Chunk)
    (h : writes args.f Style.default FormatterArgs.default = (log, .ok ()))
    (h' : writes args'.f Style.default FormatterArgs.default = (log', .ok ()))
    (hsame : flatten log = flatten log') : ansiFormat args = ansiFormat args' := by
  rw [ansiFormat_eq, ansiFormat_eq, denote, denote, h, h', hsame]

example : AnsiWrote stringSink StdString.new [(['a', 'b'], ⟨.Red, .Default, .Normal⟩)]
      (str "\x1b[31mab") ∧
    AnsiWrote stringSink StdString.new [(['a'], ⟨.Red, .Default, .Normal⟩), ([], Style.default),
      (['b'], ⟨.Red, .Default, .Normal⟩)] (str "\x1b[31mab") := ⟨⟨_, rfl, rfl⟩, _, rfl, rfl⟩

/-! ## C17 -/

/-- The number of attributes in which two styles differ. -/
def differing (a b : Style) : Nat :=
  (if a.foreground = b.foreground then 0 else 1) + (if a.background = b.background then 0 else 1) +
  (if a.intensity = b.intensity then 0 else 1)

/-- `e` is what may stand between a character in style `a` and one in style `b`: nothing if the styles
are equal, the reset sequence if `b` is the default style, and otherwise one SGR sequence with one
non-empty numeric parameter, other than 0, per differing attribute. -/
def SgrBetween (a b : Style) (e : Str) : Prop :=
  (a = b → e = []) ∧
  (a ≠ b → b = ⟨.Default, .Default, .Normal⟩ → e = str "\x1b[0m") ∧
  (a ≠ b → b ≠ ⟨.Default, .Default, .Normal⟩ → ∃ ps : List Str,
    e = str "\x1b[" ++ [';'].intercalate ps ++ str "m" ∧ ps.length = differing a b ∧
    ∀ p ∈ ps, p ≠ [] ∧ p ≠ ['0'] ∧ ∀ c ∈ p, c.isDigit = true)

/-- `out` is the characters of `t` with an escape sequence as above before each of them. -/
inductive Interleaved : Style → Styled → Str → Prop
  | nil (a : Style) : Interleaved a [] []
  | cons (a : Style) (c : Char) (b : Style) (t : Styled) (e out : Str) :
    SgrBetween a b e → Interleaved b t out → Interleaved a ((c, b) :: t) (e ++ c :: out)

theorem intercalate_segs (p : Str) (ps : List Str) : [';'].intercalate (p :: ps) = p ++ ansiRest ps := by
  induction ps generalizing p with
  | nil => simp [List.intercalate, ansiRest]
  | cons q ps ih =>
    have e := ih q
    simp only [List.intercalate, List.intersperse_cons_cons, ansiRest, List.flatten_cons,
      List.flatMap_cons] at e ⊢
    rw [e]
    simp

theorem segments_ok (a b : Style) : (Ansi.segments (b.diffFrom a)).length = differing a b ∧
    ∀ p ∈ Ansi.segments (b.diffFrom a), p ≠ [] ∧ p ≠ ['0'] := by
  obtain ⟨af, ab, ai⟩ := a
  obtain ⟨bf, bb, bi⟩ := b
  have h1 : ∀ c, str (AnsiUtil.foreground c) ≠ [] ∧ str (AnsiUtil.foreground c) ≠ ['0'] := by
    intro c; cases c <;> decide
  have h2 : ∀ c, str (AnsiUtil.background c) ≠ [] ∧ str (AnsiUtil.background c) ≠ ['0'] := by
    intro c; cases c <;> decide
  have h3 : ∀ i, str (AnsiUtil.intensity i) ≠ [] ∧ str (AnsiUtil.intensity i) ≠ ['0'] := by
    intro i; cases i <;> decide
  simp only [Ansi.segments, Style.diffFrom, diffField, differing]
  by_cases e1 : af = bf <;> by_cases e2 : ab = bb <;> by_cases e3 : ai = bi <;>
    simp [e1, e2, e3] <;>
    refine ⟨?_, ?_⟩ <;> first | trivial | simp_all

theorem sgrBetween_switch (a b : Style) : SgrBetween a b (ansiSwitch a b) := by
  refine ⟨?_, ?_, ?_⟩
  · rintro rfl; exact ansiSwitch_self a
  · intro hab hb
    have : b = Style.default := hb
    subst this
    rw [ansiSwitch, if_pos ⟨hab, rfl⟩]
    rfl
  · intro hab hb
    have hb' : b ≠ Style.default := hb
    have hs := segments_ok a b
    have hp := isParam_segments (b.diffFrom a)
    refine ⟨Ansi.segments (b.diffFrom a), ?_, hs.1, fun p h => ⟨(hs.2 p h).1, (hs.2 p h).2, hp p h⟩⟩
    simp only [ansiSwitch, hb', and_false, if_false]
    cases hseg : Ansi.segments (b.diffFrom a) with
    | nil =>
      exfalso
      rw [hseg] at hs
      have hd : differing a b = 0 := hs.1.symm
      apply hab
      obtain ⟨af, ab, ai⟩ := a
      obtain ⟨bf, bb, bi⟩ := b
      clear hs hp hb hb' hseg
      by_cases e1 : af = bf <;> by_cases e2 : ab = bb <;> by_cases e3 : ai = bi <;>
        simp [differing, e1, e2, e3] at hd ⊢
    | cons p ps => rw [intercalate_segs]; simp [ansiSegs]

theorem interleaved_render (cur : Style) (t : Styled) :
    Interleaved cur t (renderWith ansiSwitch plainEnc cur t) := by
  induction t generalizing cur with
  | nil => exact .nil cur
  | cons x t ih =>
    obtain ⟨c, st⟩ := x
    have := Interleaved.cons cur c st t _ _ (sgrBetween_switch cur st) (ih st)
    simpa [renderWith, plainEnc] using this

/-- C17: the output is the characters written with, before each one, exactly what `SgrBetween` allows:
nothing when the style did not change, otherwise one SGR sequence. After `finish` there is one more, from
the last style to the default one. -/
theorem C17_escape_only_on_change (k : FmtSink T) (t : T) (chs : List Chunk) (out : Str) :
    (AnsiWrote k t chs out → Interleaved ⟨.Default, .Default, .Normal⟩ (flatten chs) out) ∧
    (AnsiFinished k t chs out → ∃ body e, out = body ++ e ∧
      Interleaved ⟨.Default, .Default, .Normal⟩ (flatten chs) body ∧
      SgrBetween (((flatten chs).getLast?.map Prod.snd).getD ⟨.Default, .Default, .Normal⟩)
        ⟨.Default, .Default, .Normal⟩ e) := by
  constructor
  · intro h
    rw [ansiWrote_eq k t chs out h]
    exact interleaved_render _ _
  · intro h
    refine ⟨_, _, ansiFinished_eq k t chs out h, interleaved_render _ _, ?_⟩
    have : ∀ (t : Styled) (cur : Style), lastStyle cur t = (t.getLast?.map Prod.snd).getD cur := by
      intro t
      induction t with
      | nil => intro _; rfl
      | cons x t ih =>
        intro cur
        rw [lastStyle, ih]
        cases t with
        | nil => rfl
        | cons y t =>
          rw [List.getLast?_cons_cons]
          rcases h : (y :: t).getLast? with _ | z
          · simp at h
          · rfl
    rw [this]
    exact sgrBetween_switch _ _

example : SgrBetween ⟨.Red, .Default, .Bold⟩ ⟨.Red, .Blue, .Normal⟩ (str "\x1b[44;22m") ∧
    ¬ SgrBetween ⟨.Red, .Default, .Bold⟩ ⟨.Red, .Default, .Bold⟩ (str "\x1b[31m") :=
  ⟨sgrBetween_switch ⟨.Red, .Default, .Bold⟩ ⟨.Red, .Blue, .Normal⟩, fun h => by
    have := h.1 rfl
    simp [str] at this⟩

/-! ## C18 -/

/-- C18: removing the escape sequences from the ANSI rendering gives the plain rendering. -/
theorem C18_strip_gives_plain (args : Arguments) (a p : Str) (ha : ansiFormat args = .ok a)
    (hp : plainFormat args = .ok p) (hesc : ESC ∉ p) : stripSgr a = p := by
  rw [ansiFormat_eq] at ha
  rw [plainFormat_eq] at hp
  rcases hout : (denote args).2 with u | u | _ | _ <;> rw [hout] at ha hp <;>
    simp [formatOutcome] at ha hp
  rw [← ha, ← hp]
  refine strip_ansiRender _ fun x hx e => hesc ?_
  rw [← hp, ← e]
  simp only [text]
  exact List.mem_map_of_mem hx

theorem stripSgr_no_esc (s : Str) : ESC ∉ stripSgr s := by
  have key : ∀ (s : Str) (b : Bool), ESC ∉ stripSgr.go b s := by
    intro s
    induction s with
    | nil => intro b; cases b <;> simp [stripSgr.go]
    | cons c s ih =>
      intro b
      cases b
      · simp only [stripSgr.go]
        split
        · exact ih true
        · rename_i hc
          intro h
          rcases List.mem_cons.1 h with h | h
          · exact hc h.symm
          · exact ih false h
      · simp only [stripSgr.go]
        split
        · exact ih false
        · exact ih true
  exact key s false

/-- C18: and only text without ESC can be recovered that way. -/
theorem C18_exact (args : Arguments) (a p : Str) (ha : ansiFormat args = .ok a)
    (hp : plainFormat args = .ok p) : stripSgr a = p ↔ ESC ∉ p :=
  ⟨fun h => h ▸ stripSgr_no_esc a, C18_strip_gives_plain args a p ha hp⟩

/-- C18 on any stream, whatever was written before, also before `finish`. -/
theorem C18_any_stream (k : FmtSink T) (t : T) (chs : List Chunk) (out : Str) (hesc : NoEsc chs) :
    (AnsiWrote k t chs out → stripSgr out = chs.flatMap Prod.fst) ∧
    (AnsiFinished k t chs out → stripSgr out = chs.flatMap Prod.fst) := by
  have e : text (flatten chs) = chs.flatMap Prod.fst := by
    simp [text, flatten, paint, List.map_flatMap, Function.comp_def]
  constructor
  · intro h
    have hr := strip_render Style.default (flatten chs) [] (noEsc_flatten chs hesc)
    rw [List.append_nil] at hr
    rw [ansiWrote_eq k t chs out h]
    show stripSgr.go false _ = _
    rw [hr, e]
    simp [stripSgr.go]
  · intro h
    rw [ansiFinished_eq k t chs out h, strip_ansiRender _ (noEsc_flatten chs hesc), e]

example : ansiFormat ⟨sampleProg⟩ = .ok (str "a\x1b[31;1mb\x1b[0mc") ∧
    plainFormat ⟨sampleProg⟩ = .ok (str "abc") ∧ ESC ∉ str "abc" := ⟨rfl, rfl, by decide⟩

end Stylish.Props
