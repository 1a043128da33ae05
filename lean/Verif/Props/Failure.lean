import Verif.Lemmas.FailureHtml
import Verif.Props.Ansi
import Verif.Props.Html
/-
Properties of writers that are used again after a failed write: C47.
-/

namespace Stylish.Props

open Spec

/-- One write that was tried: the writer before, the write, its result, and the writer after it. -/
structure Tried (W : Type) where
  before : W
  chunk : Chunk
  result : Res FmtError Unit
  after : W
  deriving DecidableEq

/-- Make the given writes one after the other, whatever their results. -/
def carryOn {W : Type} [Write W] : List Chunk → W → List (Tried W) × W
  | [], w => ([], w)
  | ch :: rest, w =>
    let now := Write.writeStr ch.1 ch.2 w
    let later := carryOn rest now.2
    (⟨w, ch, now.1, now.2⟩ :: later.1, later.2)

/-- `t` is what such a log may have shown: of each write a prefix, and everything if it succeeded. -/
inductive Shown {W : Type} : List (Tried W) → Styled → Prop
  | nil : Shown [] []
  | cons (e : Tried W) (log : List (Tried W)) (p : Str) (t : Styled) :
      p <+: e.chunk.1 → (e.result = .ok () → p = e.chunk.1) → Shown log t →
      Shown (e :: log) (paint p e.chunk.2 ++ t)

/-- A sink whose calls succeed or fail as the script says (and succeed when it is over); a failing call
takes nothing. -/
structure FlakySink where
  script : List Bool
  got : Str
  deriving DecidableEq, Repr

instance : FmtWrite FlakySink := ⟨fun s t =>
  match t.script with
  | [] => (.ok (), ⟨[], t.got ++ s⟩)
  | true :: rest => (.ok (), ⟨rest, t.got ++ s⟩)
  | false :: rest => (.err (), ⟨rest, t.got⟩)⟩

/-- The flaky sink obeys the laws. -/
def flakySink : FmtSink FlakySink where
  delivered := FlakySink.got
  ok := by
    intro s t t' h
    simp only [FmtWrite.writeStr] at h
    split at h <;> simp only [Prod.mk.injEq, reduceCtorEq, false_and] at h <;> rw [← h.2]
  notOk := by
    intro s t t' r h hr
    simp only [FmtWrite.writeStr] at h
    split at h <;> obtain ⟨rfl, rfl⟩ := Prod.mk.inj h
    · exact absurd rfl hr
    · exact absurd rfl hr
    · exact ⟨[], by simp, by simp⟩

theorem flakySink_honest : HonestSink flakySink := by
  intro s t t' r h hr hs hd
  simp only [FmtWrite.writeStr] at h
  split at h <;> obtain ⟨rfl, rfl⟩ := Prod.mk.inj h
  · exact absurd rfl hr
  · exact absurd rfl hr
  · have hd : t.got = t.got ++ s := hd
    simp at hd
    exact hs hd

section
variable {T : Type} [FmtWrite T]

/-! ## C47 for `Ansi`

Full statement (false of the code, `C47_ansi_counterexample`): however often the stream fails and
wherever, text written afterwards is shown in its style. It fails exactly when a failure left an escape
sequence half-written. -/

/-- The terminal after what was delivered to the stream of `a` since it was in state `t`. -/
def terminalOf (kind : TermKind) (k : FmtSink T) (t : T) (a : Ansi T) : Terminal :=
  Terminal.fresh.feed kind ((k.delivered a.inner).drop (k.delivered t).length)

/-- The writes do not use both bold and faint. -/
def OneIntensity (chs : List Chunk) : Prop :=
  (∀ ch ∈ chs, ch.2.intensity ≠ .Bold) ∨ (∀ ch ∈ chs, ch.2.intensity ≠ .Faint)

/-- The writer's style and the terminal agree. -/
def AnsiSync (kind : TermKind) (k : FmtSink T) (t : T) (a : Ansi T) (shown : Styled) : Prop :=
  k.delivered t <+: k.delivered a.inner ∧
  terminalOf kind k t a = ⟨.ground, Attrs.ofStyle a.current, shouldLook shown⟩

theorem terminalOf_append {kind : TermKind} {k : FmtSink T} {t : T} {a a' : Ansi T} {out : Str}
    (hp : k.delivered t <+: k.delivered a.inner)
    (h : k.delivered a'.inner = k.delivered a.inner ++ out) :
    k.delivered t <+: k.delivered a'.inner ∧
    terminalOf kind k t a' = (terminalOf kind k t a).feed kind out := by
  refine ⟨by rw [h]; exact hp.trans (List.prefix_append _ _), ?_⟩
  unfold terminalOf
  rw [h, List.drop_append_of_le_length hp.length_le, feed_append]

theorem shouldLook_append (a b : Styled) : shouldLook (a ++ b) = shouldLook a ++ shouldLook b := by
  simp [shouldLook]

theorem ansiSync_step {kind : TermKind} {k : FmtSink T} (hk : HonestSink k) {t : T} {a a' : Ansi T}
    {shown : Styled} (hs : AnsiSync kind k t a shown) (s : Str) (st : Style) (r : Res FmtError Unit)
    (h : Write.writeStr s st a = (r, a')) (hesc : ESC ∉ s)
    (hkind : kind = .exclusive ∨ ¬ BoldFaint a.current st)
    (hclean : r ≠ .ok () → (terminalOf kind k t a').mode = .ground) :
    (a'.current = a.current ∨ a'.current = st) ∧
    ∃ p, p <+: s ∧ (r = .ok () → p = s) ∧ AnsiSync kind k t a' (shown ++ paint p st) := by
  obtain ⟨hpre, hterm⟩ := hs
  by_cases h0 : s = []
  · subst h0
    have : (r, a') = (.ok (), a) := h.symm
    obtain ⟨rfl, rfl⟩ := Prod.mk.inj this
    exact ⟨Or.inl rfl, [], by simp, fun _ => rfl, hpre, by simpa [paint] using hterm⟩
  rcases Ansi.attempt hk s h0 st a a' r h with ⟨hr, hc, hd⟩ | ⟨p, hr, hc, hp, hne, hd⟩ |
    ⟨p, hr, hc, hp, hd⟩
  · refine ⟨Or.inr hc, s, List.prefix_rfl, fun _ => rfl, ?_⟩
    obtain ⟨h1, h2⟩ := terminalOf_append (kind := kind) hpre hd
    refine ⟨h1, ?_⟩
    rw [h2, hterm, feed_append, feed_switch kind _ _ _ hkind, feed_texts kind _ _ _ hesc, hc,
      shouldLook_append]
    rfl
  · obtain ⟨h1, h2⟩ := terminalOf_append (kind := kind) hpre hd
    have hm := hclean hr
    rw [h2, hterm] at hm
    have hp0 : p = [] := by
      apply Classical.byContradiction
      intro hp0
      exact feed_part kind _ _ _ _ p hp hne hp0 hm
    subst hp0
    refine ⟨Or.inl hc, [], by simp, fun e => absurd e hr, h1, ?_⟩
    rw [h2, hterm, hc]
    simp [paint, Terminal.feed]
  · refine ⟨Or.inr hc, p, hp, fun e => absurd e hr, ?_⟩
    obtain ⟨h1, h2⟩ := terminalOf_append (kind := kind) hpre hd
    refine ⟨h1, ?_⟩
    rw [h2, hterm, feed_append, feed_switch kind _ _ _ hkind,
      feed_texts kind _ _ _ (fun hm => hesc (hp.subset hm)), hc, shouldLook_append]
    rfl

theorem ansiSync_carryOn {kind : TermKind} {k : FmtSink T} (hk : HonestSink k) {t : T}
    (P : Style → Prop) (hP : ∀ x y, P x → P y → kind = .exclusive ∨ ¬ BoldFaint x y)
    (chs : List Chunk) (hesc : NoEsc chs) (hst : ∀ ch ∈ chs, P ch.2) (a a' : Ansi T)
    (log : List (Tried (Ansi T))) (h : carryOn chs a = (log, a'))
    (hclean : ∀ e ∈ log, e.result ≠ .ok () → (terminalOf kind k t e.after).mode = .ground)
    (shown : Styled) (hs : AnsiSync kind k t a shown) (hcur : P a.current) :
    ∃ more, Shown log more ∧ AnsiSync kind k t a' (shown ++ more) := by
  induction chs generalizing a log shown with
  | nil =>
    obtain ⟨rfl, rfl⟩ := Prod.mk.inj h
    exact ⟨[], .nil, by simpa using hs⟩
  | cons ch chs ih =>
    obtain ⟨s, st⟩ := ch
    rcases hw : Write.writeStr s st a with ⟨r, a1⟩
    rcases hl : carryOn chs a1 with ⟨log1, a2⟩
    have e : carryOn ((s, st) :: chs) a = (⟨a, (s, st), r, a1⟩ :: log1, a2) := by
      simp only [carryOn, hw, hl]
    rw [e] at h
    obtain ⟨rfl, rfl⟩ := Prod.mk.inj h
    have hPst : P st := hst (s, st) (by simp)
    obtain ⟨hc, p, hp, hpr, hsync⟩ := ansiSync_step hk hs s st r hw (hesc (s, st) (by simp))
      (hP _ _ hcur hPst) (hclean ⟨a, (s, st), r, a1⟩ (by simp))
    have hcur1 : P a1.current := by
      rcases hc with hc | hc <;> rw [hc] <;> assumption
    obtain ⟨more, hm, hsync'⟩ := ih (fun c hc => hesc c (by simp [hc])) (fun c hc => hst c (by simp [hc]))
      a1 log1 hl (fun e he => hclean e (by simp [he])) _ hsync hcur1
    exact ⟨paint p st ++ more, .cons ⟨a, (s, st), r, a1⟩ log1 p more hp hpr hm, by
      rw [← List.append_assoc]; exact hsync'⟩

/-- C47 for `Ansi` (partial: no failure may leave an escape sequence half-written; and as in C14 text
without ESC, and not both bold and faint unless the terminal makes them exclude each other): however often
and wherever the stream fails, the screen shows, of every write, a prefix in the right style - and all of
it if the write succeeded -, and nothing else; and `finish` resets the terminal. -/
theorem C47_ansi_partial (k : FmtSink T) (hk : HonestSink k) (t : T) (chs : List Chunk)
    (log : List (Tried (Ansi T))) (a : Ansi T)
    (h : carryOn chs (Ansi.new t) = (log, a)) (kind : TermKind) (hesc : NoEsc chs)
    (hkind : kind = .exclusive ∨ OneIntensity chs)
    (hclean : ∀ e ∈ log, e.result ≠ .ok () → (terminalOf kind k t e.after).mode = .ground) :
    ∃ shown, Shown log shown ∧
      (terminalOf kind k t a).screen = shouldLook shown ∧ (terminalOf kind k t a).mode = .ground ∧
      (∀ b, Ansi.finish a = (.ok (), b) →
        terminalOf kind k t b = ⟨.ground, Attrs.initial, shouldLook shown⟩) := by
  have h0 : AnsiSync kind k t (Ansi.new t) [] := by
    refine ⟨List.prefix_rfl, ?_⟩
    simp [terminalOf, Ansi.new, Terminal.feed]
    rfl
  have key : ∃ shown, Shown log shown ∧ AnsiSync kind k t a ([] ++ shown) := by
    rcases hkind with hkind | hkind | hkind
    · exact ansiSync_carryOn hk (fun _ => True) (fun _ _ _ _ => Or.inl hkind) chs hesc
        (fun _ _ => trivial) _ _ _ h hclean _ h0 trivial
    · exact ansiSync_carryOn hk (fun st => st.intensity ≠ .Bold)
        (fun x y hx hy => Or.inr (fun h => h.elim (fun h => hx h.1) (fun h => hy h.2))) chs hesc
        hkind _ _ _ h hclean _ h0 (by simp [Ansi.new, Style.default])
    · exact ansiSync_carryOn hk (fun st => st.intensity ≠ .Faint)
        (fun x y hx hy => Or.inr (fun h => h.elim (fun h => hy h.2) (fun h => hx h.1))) chs hesc
        hkind _ _ _ h hclean _ h0 (by simp [Ansi.new, Style.default])
  obtain ⟨shown, hsh, hpre, hterm⟩ := key
  rw [List.nil_append] at hterm
  refine ⟨shown, hsh, by rw [hterm], by rw [hterm], fun b hb => ?_⟩
  have hf := Ansi.finish_emits k a
  rw [hb] at hf
  obtain ⟨-, h2⟩ := terminalOf_append (kind := kind) hpre hf.1
  rw [h2, hterm, feed_switch kind _ _ _ (Or.inr (by simp [BoldFaint, Style.default]))]
  rfl

/-- C47, exactly: when an escape sequence was left half-written, the very next text can get lost: in some
style, `a` is written with success and not shown. -/
theorem C47_ansi_exact (k : FmtSink T) (t : T) (a : Ansi T) (kind : TermKind)
    (hpre : k.delivered t <+: k.delivered a.inner)
    (hdirty : (terminalOf kind k t a).mode ≠ .ground) :
    ∃ st, ∀ a', Write.writeStr ['a'] st a = (.ok (), a') →
      (terminalOf kind k t a').screen = (terminalOf kind k t a).screen := by
  refine ⟨a.current, fun a' h => ?_⟩
  have he := Ansi.renders k ['a'] a.current a
  rw [h] at he
  have hd := he.1
  simp only [paint, List.map_cons, List.map_nil, renderWith, ansiSwitch_self, plainEnc,
    List.nil_append, List.append_nil] at hd
  obtain ⟨-, h2⟩ := terminalOf_append (kind := kind) hpre hd
  rw [h2]
  rcases ht : terminalOf kind k t a with ⟨m, at', scr⟩
  rw [ht] at hdirty
  cases m with
  | ground => simp at hdirty
  | escape => simp [Terminal.feed, Terminal.step, ESC]
  | csi ps => simp [Terminal.feed, Terminal.step, ESC, Char.isDigit]

end

/-- The negation witness: the stream fails once, after the `ESC [` of a red text. The program then writes
`abc` in the default style, successfully: `a` is swallowed. -/
theorem C47_ansi_counterexample :
    let red : Style := ⟨.Red, .Default, .Normal⟩
    let start : FlakySink := ⟨[true, false], []⟩
    let run := carryOn [(['x'], red), (['a', 'b', 'c'], Style.default)] (Ansi.new start)
    run.1.map (fun e => e.result) = [.err (), .ok ()] ∧
    (terminalOf .exclusive flakySink start run.2).screen = shouldLook (paint ['b', 'c'] Style.default) := by
  decide

/-- The hypotheses of `C47_ansi_partial` are met by a run with three failures: one before anything was
sent, one between the escape sequence and its text, and one of a later text. -/
example :
    let red : Style := ⟨.Red, .Default, .Normal⟩
    let start : FlakySink := ⟨[false, true, true, true, false, true, false], []⟩
    let run := carryOn [(['v'], red), (['w'], red), (['x'], red), (['y'], red), (['z'], Style.default)]
      (Ansi.new start)
    run.1.map (fun e => e.result) = [.err (), .err (), .ok (), .err (), .ok ()] ∧
    (∀ e ∈ run.1, e.result ≠ .ok () → (terminalOf .independent flakySink start e.after).mode = .ground) ∧
    run.2.inner.got = str "\x1b[31mx\x1b[0mz" := by
  decide

/-! ## C47 for `Html`

Full statement (false of the code, `C47_html_counterexample`): however often the stream fails and wherever,
the page stays balanced and shows later text in its style. It fails exactly when a failure left a tag or a
character reference half-written, or came between the `</span>` and the `<span>` of a style change. -/

section
variable {T : Type} [FmtWrite T]
open HtmlReader

/-- What was delivered to the stream of `a` since it was in state `t`. -/
def pageOf (k : FmtSink T) (t : T) (a : Html T) : Str :=
  (k.delivered a.inner).drop (k.delivered t).length

/-- After the write, the page is not inside a tag or a reference, and either the same spans are open as
before or those for the style of the write. -/
def LeftClean (k : FmtSink T) (t : T) (e : Tried (Html T)) : Prop :=
  ∃ spans, standing (pageOf k t e.after) = some spans ∧
    (standing (pageOf k t e.before) = some spans ∨
      spans = if e.chunk.2 = ⟨.Default, .Default, .Normal⟩ then [] else [e.chunk.2])

/-- The writer's style and the page agree. -/
def HtmlSync (k : FmtSink T) (t : T) (a : Html T) (shown : Styled) : Prop :=
  k.delivered t <+: k.delivered a.inner ∧
  ∃ ts, tokens (pageOf k t a) = some ts ∧ openSpans [] ts = some (stackOf a.current) ∧
    ∀ us, page [] (ts ++ us) = (page (stackOf a.current) us).map (shown ++ ·)

theorem pageOf_append {k : FmtSink T} {t : T} {a a' : Html T} {out : Str}
    (hp : k.delivered t <+: k.delivered a.inner)
    (h : k.delivered a'.inner = k.delivered a.inner ++ out) :
    k.delivered t <+: k.delivered a'.inner ∧ pageOf k t a' = pageOf k t a ++ out := by
  refine ⟨by rw [h]; exact hp.trans (List.prefix_append _ _), ?_⟩
  unfold pageOf
  rw [h, List.drop_append_of_le_length hp.length_le]

/-- The whole switch and some text. -/
theorem htmlSync_text {k : FmtSink T} {t : T} {a a' : Html T} {shown : Styled}
    (hs : HtmlSync k t a shown) (st : Style) (p : Str) (hc : a'.current = st)
    (hd : k.delivered a'.inner = k.delivered a.inner ++ (htmlSwitch a.current st ++ p.flatMap htmlEnc)) :
    HtmlSync k t a' (shown ++ paint p st) := by
  obtain ⟨hpre, ts, h1, h2, h3⟩ := hs
  obtain ⟨g1, g2⟩ := pageOf_append hpre hd
  refine ⟨g1, ts ++ (switchTokens a.current st ++ p.map .char), ?_, ?_, ?_⟩
  · rw [g2]
    exact lex_append_some _ _ _ _ _ h1 (lex_append_some _ _ _ _ _ (lex_switch _ _) (lex_text p))
  · rw [openSpans_append, h2, Option.bind_some, openSpans_append, openSpans_switch, Option.bind_some,
      openSpans_text, hc]
  · intro us
    rw [List.append_assoc, h3, List.append_assoc, page_switch, page_text, hc]
    simp [Function.comp_def]

/-- A failed write on a writer in agreement with the page: it stays in agreement if the failure was clean,
and otherwise the page is lost: no `finish` can repair it. -/
theorem htmlSync_step {k : FmtSink T} (hk : HonestSink k) {t : T} {a a' : Html T}
    {shown : Styled} (hs : HtmlSync k t a shown) (s : Str) (st : Style) (r : Res FmtError Unit)
    (h : Write.writeStr s st a = (r, a')) :
    ((r = .ok () ∨ LeftClean k t ⟨a, (s, st), r, a'⟩) ∧
      ∃ p, p <+: s ∧ (r = .ok () → p = s) ∧ HtmlSync k t a' (shown ++ paint p st)) ∨
    (r ≠ .ok () ∧ ¬ LeftClean k t ⟨a, (s, st), r, a'⟩ ∧
      ∀ b, Html.finish a' = (.ok (), b) → HtmlReader.read (pageOf k t b) = none) := by
  have hs' := hs
  obtain ⟨hpre, ts, h1, h2, h3⟩ := hs'
  have hstand : standing (pageOf k t a) = some (stackOf a.current) := by
    rw [standing, h1]; exact h2
  have clean_of_sync : ∀ sh, HtmlSync k t a' sh → (a'.current = a.current ∨ a'.current = st) →
      LeftClean k t ⟨a, (s, st), r, a'⟩ := by
    rintro sh ⟨-, ts', g1, g2, -⟩ hc
    refine ⟨stackOf a'.current, by rw [standing, g1]; exact g2, ?_⟩
    rcases hc with hc | hc
    · left; rw [hc]; exact hstand
    · right; rw [hc]; rfl
  by_cases h0 : s = []
  · subst h0
    have : (r, a') = (.ok (), a) := h.symm
    obtain ⟨rfl, rfl⟩ := Prod.mk.inj this
    exact Or.inl ⟨Or.inl rfl, [], by simp, fun _ => rfl, by simpa [paint] using hs⟩
  have finish_page : ∀ b, Html.finish a' = (.ok (), b) → k.delivered t <+: k.delivered a'.inner →
      pageOf k t b = pageOf k t a' ++ htmlClose a'.current := by
    intro b hb hp
    have hf := Html.finish_emits k a'
    rw [hb] at hf
    have e : htmlSwitch a'.current Style.default = htmlClose a'.current := by simp [htmlSwitch]
    rw [e] at hf
    exact (pageOf_append hp hf.1).2
  rcases Html.attempt hk s h0 st a a' r h with ⟨hr, hc, hd⟩ | ⟨p, hr, hc, hp, hne, hd⟩ |
    ⟨q, hr, hc, hq, hd⟩
  · exact Or.inl ⟨Or.inl hr, s, List.prefix_rfl, fun _ => rfl, htmlSync_text hs st s hc hd⟩
  · obtain ⟨g1, g2⟩ := pageOf_append hpre hd
    by_cases hp0 : p = []
    · subst hp0
      have hsync : HtmlSync k t a' (shown ++ paint [] st) := by
        refine ⟨g1, ts, by rw [g2, List.append_nil]; exact h1, by rw [hc]; exact h2, ?_⟩
        intro us
        rw [hc, h3]
        simp [paint]
      exact Or.inl ⟨Or.inr (clean_of_sync _ hsync (Or.inl hc)), [], by simp, fun e => absurd e hr, hsync⟩
    · refine Or.inr ⟨hr, ?_, ?_⟩
      · rintro ⟨spans, e1, e2⟩
        have e1 : standing (pageOf k t a') = some spans := e1
        have e2 : standing (pageOf k t a) = some spans ∨ spans = stackOf st := e2
        rw [standing, tokens, g2, lex_append _ _ _ _ h1] at e1
        rw [hstand, Option.some.injEq] at e2
        rcases part_of_switch hp hne hp0 with ⟨q, rfl, hq⟩ | ⟨hcd, hsd, hcs, q, rfl, hq⟩
        · have : lex .data ('<' :: q) = none := by rw [lex, if_pos rfl]; exact lex_tag_open _ _ hq
          rw [this] at e1
          simp at e1
        · have hl : lex .data (str "</span>") = some [.close] := by decide
          rw [lex_append _ _ _ _ hl] at e1
          rcases hq with rfl | ⟨q', rfl, hq'⟩
          · have e3 : lex .data [] = some [] := rfl
            rw [e3] at e1
            simp only [Option.map_some, List.append_nil, Option.bind_some] at e1
            rw [openSpans_append, h2, Option.bind_some] at e1
            have e4 : stackOf a.current = [a.current] := by simp [stackOf, hcd]
            have e5 : stackOf st = [st] := by simp [stackOf, hsd]
            rw [e4] at e1 e2
            rw [e5] at e2
            have e1 : spans = [] := by simpa [openSpans] using e1.symm
            subst e1
            rcases e2 with e2 | e2 <;> simp at e2
          · have : lex .data ('<' :: q') = none := by rw [lex, if_pos rfl]; exact lex_tag_open _ _ hq'
            rw [this] at e1
            simp at e1
      · intro b hb
        rw [HtmlReader.read, tokens, finish_page b hb g1, g2, List.append_assoc, lex_append _ _ _ _ h1, hc]
        have tagged : ∀ q : Str, '>' ∉ q → lex .data ('<' :: q ++ htmlClose a.current) = none := by
          intro q hq
          rw [List.cons_append, lex, if_pos rfl]
          unfold htmlClose
          split
          · exact lex_tag_close _ _ hq
          · rw [List.append_nil]; exact lex_tag_open _ _ hq
        rcases part_of_switch hp hne hp0 with ⟨q, rfl, hq⟩ | ⟨hcd, hsd, hcs, q, rfl, hq⟩
        · rw [tagged q hq]; rfl
        · have hl : lex .data (str "</span>") = some [.close] := by decide
          rw [List.append_assoc, lex_append _ _ _ _ hl]
          rcases hq with rfl | ⟨q', rfl, hq'⟩
          · have e : htmlClose a.current = str "</span>" := by simp [htmlClose, hcd]
            rw [List.nil_append, e, hl]
            simp only [Option.map_some, Option.bind_some]
            rw [h3]
            have e4 : stackOf a.current = [a.current] := by simp [stackOf, hcd]
            rw [e4]
            rfl
          · rw [tagged q' hq']; rfl
  · obtain ⟨g1, g2⟩ := pageOf_append hpre hd
    obtain ⟨p, hp, hp'⟩ := part_of_text hq
    rcases hp' with rfl | ⟨x, rfl, hx⟩
    · have hsync := htmlSync_text hs st p hc hd
      exact Or.inl ⟨Or.inr (clean_of_sync _ hsync (Or.inr hc)), p, hp, fun e => absurd e hr, hsync⟩
    · have bad : ∀ y : Str, ';' ∉ y →
          tokens (pageOf k t a ++ (htmlSwitch a.current st ++ (p.flatMap htmlEnc ++ '&' :: y))) = none := by
        intro y hy
        rw [tokens, lex_append _ _ _ _ h1, lex_append _ _ _ _ (lex_switch _ _),
          lex_append _ _ _ _ (lex_text p), lex, if_neg (by decide), if_pos rfl, lex_ref_open _ _ hy]
        rfl
      refine Or.inr ⟨hr, ?_, ?_⟩
      · rintro ⟨spans, e1, -⟩
        have e1 : standing (pageOf k t a') = some spans := e1
        rw [standing, g2, bad x hx] at e1
        simp at e1
      · intro b hb
        have e : pageOf k t b = pageOf k t a ++ (htmlSwitch a.current st ++ (p.flatMap htmlEnc ++
            '&' :: (x ++ htmlClose a'.current))) := by
          rw [finish_page b hb g1, g2]; simp
        rw [HtmlReader.read, e, bad]
        · rfl
        · simp only [List.mem_append, not_or]
          refine ⟨hx, ?_⟩
          unfold htmlClose
          split
          · decide
          · simp

theorem htmlSync_carryOn {k : FmtSink T} (hk : HonestSink k) {t : T} (chs : List Chunk)
    (a a' : Html T) (log : List (Tried (Html T))) (h : carryOn chs a = (log, a'))
    (hclean : ∀ e ∈ log, e.result ≠ .ok () → LeftClean k t e)
    (shown : Styled) (hs : HtmlSync k t a shown) :
    ∃ more, Shown log more ∧ HtmlSync k t a' (shown ++ more) := by
  induction chs generalizing a log shown with
  | nil =>
    obtain ⟨rfl, rfl⟩ := Prod.mk.inj h
    exact ⟨[], .nil, by simpa using hs⟩
  | cons ch chs ih =>
    obtain ⟨s, st⟩ := ch
    rcases hw : Write.writeStr s st a with ⟨r, a1⟩
    rcases hl : carryOn chs a1 with ⟨log1, a2⟩
    have e : carryOn ((s, st) :: chs) a = (⟨a, (s, st), r, a1⟩ :: log1, a2) := by
      simp only [carryOn, hw, hl]
    rw [e] at h
    obtain ⟨rfl, rfl⟩ := Prod.mk.inj h
    rcases htmlSync_step hk hs s st r hw with ⟨-, p, hp, hpr, hsync⟩ | ⟨hr, hnot, -⟩
    · obtain ⟨more, hm, hsync'⟩ := ih a1 log1 hl (fun e he => hclean e (by simp [he])) _ hsync
      exact ⟨paint p st ++ more, .cons ⟨a, (s, st), r, a1⟩ log1 p more hp hpr hm, by
        rw [← List.append_assoc]; exact hsync'⟩
    · exact absurd (hclean ⟨a, (s, st), r, a1⟩ (by simp) hr) hnot

theorem htmlSync_new (k : FmtSink T) (t : T) : HtmlSync k t (Html.new t) [] := by
  have e : pageOf k t (Html.new t) = [] := by simp [pageOf, Html.new]
  refine ⟨List.prefix_rfl, [], by rw [e]; rfl, rfl, fun us => ?_⟩
  have : stackOf (Html.new t).current = [] := rfl
  rw [this]
  simp

/-- C47 for `Html` (partial: every failure left the page clean): however often and wherever the stream
fails, the page consists, of every write, of a prefix in the right style - and all of it if the write
succeeded -, and after a successful `finish` it is balanced. No condition on the text. -/
theorem C47_html_partial (k : FmtSink T) (hk : HonestSink k) (t : T) (chs : List Chunk)
    (log : List (Tried (Html T))) (a : Html T) (h : carryOn chs (Html.new t) = (log, a))
    (hclean : ∀ e ∈ log, e.result ≠ .ok () → LeftClean k t e) :
    ∃ shown, Shown log shown ∧
      ∀ b, Html.finish a = (.ok (), b) → HtmlReader.read (pageOf k t b) = some shown := by
  obtain ⟨shown, hsh, hpre, ts, h1, h2, h3⟩ :=
    htmlSync_carryOn hk chs _ _ log h hclean [] (htmlSync_new k t)
  refine ⟨shown, hsh, fun b hb => ?_⟩
  have hf := Html.finish_emits k a
  rw [hb] at hf
  rw [HtmlReader.read, (pageOf_append hpre hf.1).2, tokens,
    lex_append_some _ _ _ _ _ h1 (lex_switch _ _)]
  have e := page_switch a.current Style.default []
  rw [List.append_nil] at e
  have h4 := h3 (switchTokens a.current Style.default)
  rw [e] at h4
  have e3 : page (stackOf Style.default) [] = some [] := rfl
  rw [e3] at h4
  simpa using h4

/-- C47 for `Html`, exactly: after clean failures only, a failed write followed by a successful `finish`
gives a readable page if and only if it was clean. -/
theorem C47_html_exact (k : FmtSink T) (hk : HonestSink k) (t : T) (chs : List Chunk)
    (log : List (Tried (Html T))) (a : Html T) (h : carryOn chs (Html.new t) = (log, a))
    (hclean : ∀ e ∈ log, e.result ≠ .ok () → LeftClean k t e)
    (s : Str) (st : Style) (r : Res FmtError Unit) (a' b : Html T)
    (hw : Write.writeStr s st a = (r, a')) (hr : r ≠ .ok ()) (hb : Html.finish a' = (.ok (), b)) :
    LeftClean k t ⟨a, (s, st), r, a'⟩ ↔ (HtmlReader.read (pageOf k t b)).isSome := by
  obtain ⟨shown, -, hs⟩ := htmlSync_carryOn hk chs _ _ log h hclean [] (htmlSync_new k t)
  rcases htmlSync_step hk hs s st r hw with ⟨hc, p, -, -, hsync⟩ | ⟨-, hnot, hbad⟩
  · refine ⟨fun _ => ?_, fun _ => hc.resolve_left hr⟩
    obtain ⟨hpre, ts, h1, h2, h3⟩ := hsync
    have hf := Html.finish_emits k a'
    rw [hb] at hf
    rw [HtmlReader.read, (pageOf_append hpre hf.1).2, tokens,
      lex_append_some _ _ _ _ _ h1 (lex_switch _ _)]
    have e := page_switch a'.current Style.default []
    rw [List.append_nil] at e
    have h4 := h3 (switchTokens a'.current Style.default)
    rw [e] at h4
    have e3 : page (stackOf Style.default) [] = some [] := rfl
    rw [e3] at h4
    simp [h4]
  · refine ⟨fun hc => absurd hc hnot, fun hsome => ?_⟩
    rw [hbad b hb] at hsome
    simp at hsome

/-- C47 for `Plain` (no condition at all): what was delivered is, of every write, a prefix, and all of it
if it succeeded. -/
theorem C47_plain (k : FmtSink T) (t : T) (chs : List Chunk) (log : List (Tried (Plain T)))
    (a : Plain T) (h : carryOn chs (Plain.new t) = (log, a)) :
    ∃ shown, Shown log shown ∧ k.delivered a.inner = k.delivered t ++ text shown := by
  suffices H : ∀ (chs : List Chunk) (w a : Plain T) (log : List (Tried (Plain T))),
      carryOn chs w = (log, a) →
      ∃ shown, Shown log shown ∧ k.delivered a.inner = k.delivered w.inner ++ text shown from
    H chs (Plain.new t) a log h
  clear h
  intro chs
  induction chs with
  | nil =>
    intro w a log h
    obtain ⟨rfl, rfl⟩ := Prod.mk.inj h
    exact ⟨[], .nil, by simp [text]⟩
  | cons ch chs ih =>
    intro w a log h
    obtain ⟨s, st⟩ := ch
    rcases hw : Write.writeStr s st w with ⟨r, w1⟩
    rcases hl : carryOn chs w1 with ⟨log1, w2⟩
    have e : carryOn ((s, st) :: chs) w = (⟨w, (s, st), r, w1⟩ :: log1, w2) := by
      simp only [carryOn, hw, hl]
    rw [e] at h
    obtain ⟨rfl, rfl⟩ := Prod.mk.inj h
    obtain ⟨more, hm, hd⟩ := ih _ _ _ hl
    have he := plain_writeStr k s st w
    rw [hw] at he
    have key : ∃ p, p <+: s ∧ (r = .ok () → p = s) ∧
        k.delivered w1.inner = k.delivered w.inner ++ p := by
      cases r with
      | ok u => exact ⟨s, List.prefix_rfl, fun _ => rfl, he.1⟩
      | err e => obtain ⟨p, h1, h2⟩ := he; exact ⟨p, h1, by simp, h2⟩
      | panic => obtain ⟨p, h1, h2⟩ := he; exact ⟨p, h1, by simp, h2⟩
      | diverge => obtain ⟨p, h1, h2⟩ := he; exact ⟨p, h1, by simp, h2⟩
    obtain ⟨p, hp, hpr, hd1⟩ := key
    exact ⟨paint p st ++ more, .cons ⟨w, (s, st), r, w1⟩ log1 p more hp hpr hm, by
      rw [hd, hd1]; simp⟩

end

/-- The negation witness: the stream fails once, after the `</span>` of a change from red to blue;
`finish` succeeds and writes a second `</span>`. -/
theorem C47_html_counterexample :
    let red : Style := ⟨.Red, .Default, .Normal⟩
    let blue : Style := ⟨.Blue, .Default, .Normal⟩
    let start : FlakySink := ⟨[true, true, true, true, true, false], []⟩
    let run := carryOn [(['x'], red), (['y'], blue)] (Html.new start)
    let fin := Html.finish run.2
    run.1.map (fun e => e.result) = [.ok (), .err ()] ∧ fin.1 = .ok () ∧
    pageOf flakySink start fin.2 = str "<span style=color:red>x</span></span>" ∧
    HtmlReader.read (pageOf flakySink start fin.2) = none := by
  decide +kernel

/-- The hypotheses of `C47_html_partial` are met by a run with three failures: before the opening tag,
between the tag and the text, and in the middle of a text with a special character. -/
example :
    let red : Style := ⟨.Red, .Default, .Normal⟩
    let start : FlakySink := ⟨[false, true, true, true, false, true, true, false], []⟩
    let run := carryOn [(['v'], red), (['w'], red), (['x', '<', 'y'], red), (['z'], Style.default)]
      (Html.new start)
    run.1.map (fun e => e.result) = [.err (), .err (), .err (), .ok ()] ∧
    run.2.inner.got = str "<span style=color:red>x&lt;</span>z" := by
  decide +kernel

example : ∀ e ∈ (carryOn [(['v'], ⟨.Red, .Default, .Normal⟩), (['w'], ⟨.Red, .Default, .Normal⟩)]
      (Html.new (⟨[false, true, true, true, false], []⟩ : FlakySink))).1,
    e.result ≠ .ok () → LeftClean flakySink ⟨[], []⟩ e := by
  intro e he _
  simp only [carryOn, List.mem_cons, List.not_mem_nil, or_false] at he
  rcases he with rfl | rfl
  · exact ⟨[], by decide +kernel, Or.inl (by decide +kernel)⟩
  · exact ⟨[⟨.Red, .Default, .Normal⟩], by decide +kernel, Or.inr (by decide +kernel)⟩

end Stylish.Props
