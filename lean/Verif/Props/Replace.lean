import Verif.Spec.Replace
import Verif.Props.Recompose
import Verif.Props.Vt
/-
C114: outputs whose characters are replaced.
-/

namespace Stylish.Props

open Spec

variable {T : Type} [FmtWrite T]

/-! ## C114 -/

namespace Replace
variable {f : Replacement}

/-- The replacement in a styled text. -/
def within (f : Replacement) (t : Styled) : Styled := t.flatMap fun x => paint (f x.1) x.2

theorem flatten_writes (chs : List Chunk) : flatten (f.writes chs) = within f (flatten chs) := by
  induction chs with
  | nil => rfl
  | cons ch chs ih =>
    obtain ⟨s, st⟩ := ch
    have e1 : flatten ((s, st) :: chs) = paint s st ++ flatten chs := rfl
    have e2 : flatten (f.writes ((s, st) :: chs)) = paint (s.flatMap f) st ++ flatten (f.writes chs) := rfl
    rw [e1, e2, ih, within, within, List.flatMap_append]
    clear e1 e2
    congr 1
    induction s with
    | nil => rfl
    | cons c s ihs =>
      simp only [paint, List.flatMap_cons, List.map_append, List.map_cons] at ihs ⊢
      rw [ihs]

theorem keeps (s : Str) (h : ∀ c ∈ s, f c = [c]) : s.flatMap f = s := by
  induction s with
  | nil => rfl
  | cons c s ih => rw [List.flatMap_cons, h c (by simp), ih fun d hd => h d (by simp [hd])]; rfl

theorem render (sw : Style → Style → Str) (enc : Char → Str) (hsw : ∀ a b, ∀ c ∈ sw a b, f c = [c]) (t : Styled) : ∀ cur,
    (renderWith sw enc cur t).flatMap f = renderWith sw (fun c => (enc c).flatMap f) cur t := by
  induction t with
  | nil => intro _; rfl
  | cons x t ih =>
    obtain ⟨c, st⟩ := x
    intro cur
    rw [renderWith, renderWith, List.flatMap_append, List.flatMap_append, keeps _ (hsw cur st), ih st]

theorem render_within (sw : Style → Style → Str) (enc : Char → Str) (hself : ∀ a, sw a a = []) (hf : f.LeavesNoneOut)
    (t : Styled) : ∀ cur,
    renderWith sw enc cur (within f t) = renderWith sw (fun c => (f c).flatMap enc) cur t ∧
    lastStyle cur (within f t) = lastStyle cur t := by
  induction t with
  | nil => exact fun _ => ⟨rfl, rfl⟩
  | cons x t ih =>
    obtain ⟨c, st⟩ := x
    intro cur
    have e : within f ((c, st) :: t) = paint (f c) st ++ within f t := rfl
    have hne : ¬ (f c).isEmpty = true := by simpa using hf c
    rw [e, renderWith_append, lastStyle_append, renderWith_paint _ _ hself, lastStyle_paint, if_neg hne, if_neg hne, (ih st).1,
      (ih st).2]
    exact ⟨rfl, rfl⟩

theorem ansi_keeps (h : f.KeepsAscii) (a b : Style) : ∀ c ∈ ansiSwitch a b, f c = [c] := by
  intro c hc
  have := ansiSwitch_marks a b c hc
  simp only [ansiMark, Bool.or_eq_true, decide_eq_true_eq] at this
  refine h c ?_
  rcases this with (((h | h) | h) | h) | h
  · exact .inr h
  · left; subst h; decide
  · left
    simp [Char.isDigit] at h
    have h1 : '0'.toNat ≤ c.toNat := h.1
    have h2 : c.toNat ≤ '9'.toNat := h.2
    have : '9'.toNat = 57 := by decide
    have : '0'.toNat = 48 := by decide
    omega
  · left; subst h; decide
  · left; subst h; decide

theorem html_keeps (h : f.KeepsAscii) (a b : Style) : ∀ c ∈ htmlSwitch a b, f c = [c] := by
  intro c hc
  have := htmlSwitch_printable a b c hc
  simp only [printable, Bool.and_eq_true, decide_eq_true_eq] at this
  exact h c (.inl this)

theorem markup_keeps (h : f.KeepsAscii) (c : Char) (hc : c ∈ markupChars) :
    f c = [c] ∧ (htmlEnc c).flatMap f = htmlEnc c := by
  have hp : ∀ d ∈ c :: htmlEnc c, 0x20 ≤ d.toNat ∧ d.toNat ≤ 0x7E := by
    simp only [markupChars, List.mem_cons, List.not_mem_nil, or_false] at hc
    rcases hc with rfl | rfl | rfl | rfl | rfl <;> decide
  exact ⟨h c (.inl (hp c (by simp))), keeps _ fun d hd => h d (.inl (hp d (by simp [hd])))⟩

theorem enc_replaced (h : f.KeepsAscii) (hm : ∀ c, c ∉ markupChars → ∀ d ∈ f c, d ∉ markupChars) (c : Char) :
    (htmlEnc c).flatMap f = (f c).flatMap htmlEnc := by
  by_cases hc : c ∈ markupChars
  · obtain ⟨h1, h2⟩ := markup_keeps h c hc
    rw [h1, h2]; simp
  · rw [Recompose.enc_other c hc, Recompose.enc_none (f c) (hm c hc)]; simp

theorem feed (kind : Vt.Kind) (t : Styled) (hin : ∀ x ∈ within f t, x.1 ∉ Vt.acts kind) : ∀ cur es,
    (kind.boldFaint = .exclusive ∨ NoBoldFaintFrom cur t) →
    Vt.Screen.feed kind ⟨.ground, Vt.Pen.ofStyle cur, es⟩ (renderWith ansiSwitch f cur t) =
      ⟨.ground, Vt.Pen.ofStyle (lastStyle cur t), es ++ (within f t).map Vt.expected⟩ := by
  induction t with
  | nil => intro cur es _; simp [renderWith, Vt.Screen.feed, lastStyle, within]
  | cons x t ih =>
    obtain ⟨c, st⟩ := x
    intro cur es h
    have e : within f ((c, st) :: t) = paint (f c) st ++ within f t := rfl
    rw [e] at hin ⊢
    have hc : ∀ (s : Str) (es : List Vt.Event), (∀ d ∈ s, d ∉ Vt.acts kind) →
        Vt.Screen.feed kind ⟨.ground, Vt.Pen.ofStyle st, es⟩ s =
          ⟨.ground, Vt.Pen.ofStyle st, es ++ (paint s st).map Vt.expected⟩ := by
      intro s
      induction s with
      | nil => intro es _; simp [Vt.Screen.feed, paint]
      | cons d s ihs =>
        intro es hd
        rw [show d :: s = [d] ++ s from rfl, Vt.feed_append, Vt.step_text kind _ es d st (.inr rfl) (hd d (by simp)),
          ihs _ fun y hy => hd y (by simp [hy])]
        simp [paint]
    have h1 : kind.boldFaint = .exclusive ∨ ¬ BoldFaint cur st := h.imp id And.left
    have h2 : kind.boldFaint = .exclusive ∨ NoBoldFaintFrom st t := h.imp id And.right
    rw [renderWith, Vt.feed_append, Vt.feed_append, Vt.feed_switch kind cur st es h1,
      hc (f c) es fun d hd => hin (d, st) (by simp [paint, hd]), ih (fun y hy => hin y (by simp [hy])) st _ h2]
    simp [lastStyle]

open HtmlReader in
theorem lex_plain (s : Str) (h : ∀ c ∈ s, c ≠ '<' ∧ c ≠ '&') : lex .data s = some (s.map .char) := by
  induction s with
  | nil => rfl
  | cons c s ih =>
    rw [lex, if_neg (h c (by simp)).1, if_neg (h c (by simp)).2, ih fun d hd => h d (by simp [hd])]
    rfl

open HtmlReader in
/-- The tokens of the text in which characters have been replaced. -/
def replacedTokens (f : Replacement) : Style → Styled → List Token
  | _, [] => []
  | cur, (c, st) :: rest => switchTokens cur st ++ ((f c).map .char ++ replacedTokens f st rest)

open HtmlReader in
theorem lex_replaced (h : f.KeepsAscii) (hm : ∀ c, c ∉ markupChars → ∀ d ∈ f c, d ≠ '<' ∧ d ≠ '&') (t : Styled) : ∀ cur,
    lex .data (renderWith htmlSwitch (fun c => (htmlEnc c).flatMap f) cur t) = some (replacedTokens f cur t) := by
  induction t with
  | nil => intro _; rfl
  | cons x t ih =>
    obtain ⟨c, st⟩ := x
    intro cur
    rw [renderWith, replacedTokens, List.append_assoc]
    refine lex_append_some _ _ _ _ _ (lex_switch cur st) (lex_append_some _ _ _ _ _ ?_ (ih st))
    by_cases hc : c ∈ markupChars
    · obtain ⟨h1, h2⟩ := markup_keeps h c hc
      rw [h2, h1, lex_enc c]; rfl
    · rw [Recompose.enc_other c hc, List.flatMap_singleton, lex_plain _ (hm c hc)]

open HtmlReader in
theorem page_chars (st : Style) (s : Str) (ts : List Token) :
    page (stackOf st) (s.map .char ++ ts) = (page (stackOf st) ts).map (paint s st ++ ·) := by
  induction s with
  | nil => simp [paint]
  | cons c s ih =>
    have e : page (stackOf st) (.char c :: (s.map .char ++ ts)) =
        (page (stackOf st) (s.map .char ++ ts)).map ((c, (stackOf st).headD ⟨.Default, .Default, .Normal⟩) :: ·) := by
      cases stackOf st <;> rfl
    rw [List.map_cons, List.cons_append, e, ih, stackOf_head]
    simp [paint, Function.comp_def]

open HtmlReader in
theorem page_replaced (t : Styled) (ts : List Token) : ∀ cur,
    page (stackOf cur) (replacedTokens f cur t ++ ts) = (page (stackOf (lastStyle cur t)) ts).map (within f t ++ ·) := by
  induction t with
  | nil => intro cur; simp [replacedTokens, lastStyle, within]
  | cons x t ih =>
    obtain ⟨c, st⟩ := x
    intro cur
    have e : within f ((c, st) :: t) = paint (f c) st ++ within f t := rfl
    rw [replacedTokens, List.append_assoc, page_switch, List.append_assoc, page_chars, ih st, e, lastStyle]
    simp [Function.comp_def]

end Replace

/-- C114: replacing characters in the output of `Ansi` gives the output of the same writes with the characters replaced in the
texts, if printable ASCII characters and ESC are left as they are and no character is left out. -/
theorem C114_ansi (f : Replacement) (ha : f.KeepsAscii) (hn : f.LeavesNoneOut) (k : FmtSink T) (t : T) (chs : List Chunk)
    (out : Str) :
    (AnsiWrote k t chs out → AnsiWrote stringSink StdString.new (f.writes chs) (out.flatMap f)) ∧
    (AnsiFinished k t chs out → AnsiFinished stringSink StdString.new (f.writes chs) (out.flatMap f)) := by
  have hx := ansiFinished_exists stringSink stringSink_accepting StdString.new (f.writes chs)
  have e : (fun c => (plainEnc c).flatMap f) = (fun c => (f c).flatMap plainEnc) := by
    funext c
    show [c].flatMap f = (f c).flatMap fun d => [d]
    simp
  have key := Replace.render ansiSwitch plainEnc (Replace.ansi_keeps ha) (flatten chs) Style.default
  obtain ⟨h1, h2⟩ := Replace.render_within ansiSwitch plainEnc ansiSwitch_self hn (flatten chs) Style.default
  rw [e, ← h1, ← Replace.flatten_writes] at key
  rw [← Replace.flatten_writes] at h2
  constructor
  · intro h
    rw [ansiWrote_eq k t chs out h, key]
    exact hx.1
  · intro h
    rw [ansiFinished_eq k t chs out h, ansiRender, List.flatMap_append, key, Replace.keeps _ (Replace.ansi_keeps ha _ _), ← h2]
    exact hx.2

/-- C114 for `Html`, if no character is replaced by one that has to be escaped. -/
theorem C114_html (f : Replacement) (ha : f.KeepsAscii) (hn : f.LeavesNoneOut)
    (hm : ∀ c, c ∉ markupChars → ∀ d ∈ f c, d ∉ markupChars) (k : FmtSink T) (t : T) (chs : List Chunk) (out : Str) :
    (HtmlWrote k t chs out → HtmlWrote stringSink StdString.new (f.writes chs) (out.flatMap f)) ∧
    (HtmlFinished k t chs out → HtmlFinished stringSink StdString.new (f.writes chs) (out.flatMap f)) := by
  have hx := htmlFinished_exists stringSink stringSink_accepting StdString.new (f.writes chs)
  have e : (fun c => (htmlEnc c).flatMap f) = (fun c => (f c).flatMap htmlEnc) := funext (Replace.enc_replaced ha hm)
  have key := Replace.render htmlSwitch htmlEnc (Replace.html_keeps ha) (flatten chs) Style.default
  obtain ⟨h1, h2⟩ := Replace.render_within htmlSwitch htmlEnc htmlSwitch_self hn (flatten chs) Style.default
  rw [e, ← h1, ← Replace.flatten_writes] at key
  rw [← Replace.flatten_writes] at h2
  constructor
  · intro h
    rw [htmlWrote_eq k t chs out h, key]
    exact hx.1
  · intro h
    rw [htmlFinished_eq k t chs out h, htmlRender, List.flatMap_append, key, Replace.keeps _ (Replace.html_keeps ha _ _), ← h2]
    exact hx.2

/-- C114 on a video terminal, also if characters are left out: exactly the characters that are left are shown, in their
styles. -/
theorem C114_terminal (f : Replacement) (ha : f.KeepsAscii) (k : FmtSink T) (t : T) (chs : List Chunk) (out : Str)
    (h : AnsiWrote k t chs out ∨ AnsiFinished k t chs out) (kind : Vt.Kind)
    (hin : ∀ x ∈ flatten (f.writes chs), x.1 ∉ Vt.acts kind)
    (hb : kind.boldFaint = .exclusive ∨ NoBoldFaint (flatten chs)) :
    (Vt.Screen.fresh.feed kind (out.flatMap f)).events = (flatten (f.writes chs)).map Vt.expected := by
  have e : (fun c => (plainEnc c).flatMap f) = f := by
    funext c
    show [c].flatMap f = f c
    simp
  have key := Replace.render ansiSwitch plainEnc (Replace.ansi_keeps ha) (flatten chs) Style.default
  rw [e] at key
  rw [Replace.flatten_writes] at hin ⊢
  have hf := Replace.feed kind (flatten chs) hin Style.default [] (hb.imp id (noBoldFaint_from _).1)
  have e0 : Vt.Screen.fresh = ⟨.ground, Vt.Pen.ofStyle Style.default, []⟩ := rfl
  rcases h with h | h
  · rw [ansiWrote_eq k t chs out h, key, e0, hf]; simp
  · rw [ansiFinished_eq k t chs out h, ansiRender, List.flatMap_append, key, Replace.keeps _ (Replace.ansi_keeps ha _ _),
      Vt.feed_append, e0, hf, Vt.feed_switch kind _ _ _ (.inr (by simp [BoldFaint, Style.default]))]
    simp

/-- C114 in HTML, also if characters are left out: if no character is replaced by `<` or `&`, then exactly the characters that
are left are read, in their styles. -/
theorem C114_reads (f : Replacement) (ha : f.KeepsAscii) (hm : ∀ c, c ∉ markupChars → ∀ d ∈ f c, d ≠ '<' ∧ d ≠ '&')
    (k : FmtSink T) (t : T) (chs : List Chunk) (out : Str) (h : HtmlFinished k t chs out) :
    HtmlReader.read (out.flatMap f) = some (flatten (f.writes chs)) := by
  have key := Replace.render htmlSwitch htmlEnc (Replace.html_keeps ha) (flatten chs) Style.default
  have e := Replace.page_replaced (f := f) (flatten chs) (switchTokens (lastStyle Style.default (flatten chs)) Style.default)
    Style.default
  have e2 := page_switch (lastStyle Style.default (flatten chs)) Style.default []
  have e3 : stackOf Style.default = [] := rfl
  rw [List.append_nil] at e2
  rw [e2, e3] at e
  rw [htmlFinished_eq k t chs out h, htmlRender, List.flatMap_append, key, Replace.keeps _ (Replace.html_keeps ha _ _),
    HtmlReader.read, HtmlReader.tokens, lex_append_some _ _ _ _ _ (Replace.lex_replaced ha hm _ _) (lex_switch _ _),
    Replace.flatten_writes]
  simpa [HtmlReader.page] using e

/-! ### Samples -/

/-- Line ends as on Windows. -/
def windowsLines : Replacement := fun c => if c = '\n' then ['\r', '\n'] else [c]

/-- Control characters but tabs, line ends and ESC taken out; German letters in ASCII. -/
def germanAscii : Replacement := fun c =>
  if c = 'ß' then ['s', 's'] else if c = '„' then ['\"'] else
  if c.toNat < 0x20 ∧ c ≠ '\n' ∧ c ≠ '\t' ∧ c ≠ '\x1b' then [] else [c]

/-- The conditions are met. -/
example : windowsLines.KeepsAscii ∧ windowsLines.LeavesNoneOut ∧
    (∀ c, c ∉ markupChars → ∀ d ∈ windowsLines c, d ∉ markupChars) ∧
    germanAscii.KeepsAscii ∧ (∀ c, c ∉ markupChars → ∀ d ∈ germanAscii c, d ≠ '<' ∧ d ≠ '&') := by
  refine ⟨?_, ?_, ?_, ?_, ?_⟩
  · intro c hc
    unfold windowsLines
    by_cases h : c = '\n'
    · subst h; revert hc; decide
    · rw [if_neg h]
  · intro c
    unfold windowsLines
    split <;> simp
  · intro c hc d hd
    unfold windowsLines at hd
    split at hd
    · simp only [List.mem_cons, List.not_mem_nil, or_false] at hd
      rcases hd with rfl | rfl <;> decide
    · simp at hd; subst hd; exact hc
  · intro c hc
    unfold germanAscii
    have h1 : c ≠ 'ß' := by rintro rfl; revert hc; decide
    have h2 : c ≠ '„' := by rintro rfl; revert hc; decide
    rw [if_neg h1, if_neg h2, if_neg]
    rintro ⟨h3, -, -, h4⟩
    rcases hc with hc | hc
    · omega
    · exact h4 hc
  · intro c hc d hd
    have hlt : c ≠ '<' ∧ c ≠ '&' := ⟨by rintro rfl; exact hc (by decide), by rintro rfl; exact hc (by decide)⟩
    unfold germanAscii at hd
    split at hd
    · simp at hd; subst hd; decide
    · split at hd
      · simp at hd; subst hd; decide
      · split at hd
        · cases hd
        · simp at hd; subst hd; exact hlt

/-- A red line, and a bell in green. -/
def beepSample : List Chunk :=
  [(['h', 'e', 'i', 'ß', '\n'], ⟨.Red, .Default, .Normal⟩), (['\x07'], ⟨.Green, .Default, .Normal⟩), (['&', '„'], Style.default)]

example : (ansiRender (flatten beepSample)).flatMap windowsLines =
      str "\x1b[31mheiß\r\n\x1b[32m\x07\x1b[0m&„" ∧
    windowsLines.writes beepSample = [(str "heiß\r\n", ⟨.Red, .Default, .Normal⟩), (str "\x07", ⟨.Green, .Default, .Normal⟩),
      (str "&„", Style.default)] ∧
    (htmlRender (flatten beepSample)).flatMap germanAscii =
      str "<span style=color:red>heiss\n</span><span style=color:green></span>&amp;\"" ∧
    germanAscii.writes beepSample = [(str "heiss\n", ⟨.Red, .Default, .Normal⟩), ([], ⟨.Green, .Default, .Normal⟩),
      (str "&\"", Style.default)] ∧
    NoBoldFaint (flatten beepSample) := by
  refine ⟨by decide +kernel, by decide +kernel, by decide +kernel, by decide +kernel, ?_⟩
  intro pre x y post h
  have hx : ∀ x ∈ flatten beepSample, x.2.intensity = .Normal := by decide +kernel
  have h1 := hx x (by rw [h]; simp)
  have h2 := hx y (by rw [h]; simp)
  simp [h1, h2]

/-- C114: if characters are left out, then the output is not that of the texts without them, as their style is still entered. -/
theorem C114_left_out_counterexample :
    ∃ out, AnsiFinished stringSink StdString.new beepSample out ∧
      out.flatMap germanAscii = str "\x1b[31mheiss\n\x1b[32m\x1b[0m&\"" ∧
      ∀ out', AnsiFinished stringSink StdString.new (germanAscii.writes beepSample) out' → out' = str "\x1b[31mheiss\n\x1b[0m&\"" := by
  refine ⟨_, (ansiFinished_exists stringSink stringSink_accepting StdString.new _).2, by decide +kernel, ?_⟩
  intro out' h
  rw [ansiFinished_eq _ _ _ _ h]
  decide +kernel

/-- Angle quotation marks in ASCII, as some programs transliterate them. -/
def asciiQuotes : Replacement := fun c => if c = '‹' then ['<'] else if c = '›' then ['>'] else [c]

/-- C114: HTML output must not be transliterated so that `<` comes in: quoted text becomes a tag. -/
theorem C114_quotes_counterexample : asciiQuotes.KeepsAscii ∧ asciiQuotes.LeavesNoneOut ∧
    ∃ out, HtmlFinished stringSink StdString.new [(['‹', '/', 's', 'p', 'a', 'n', '›'], ⟨.Red, .Default, .Normal⟩),
        (['x'], ⟨.Red, .Default, .Normal⟩)] out ∧
      out.flatMap asciiQuotes = str "<span style=color:red></span>x</span>" ∧ HtmlReader.read (out.flatMap asciiQuotes) = none := by
  refine ⟨?_, ?_, _, (htmlFinished_exists stringSink stringSink_accepting StdString.new _).2, by decide +kernel, by decide +kernel⟩
  · intro c hc
    have h1 : c ≠ '‹' := by rintro rfl; revert hc; decide
    have h2 : c ≠ '›' := by rintro rfl; revert hc; decide
    rw [asciiQuotes, if_neg h1, if_neg h2]
  · intro c
    unfold asciiQuotes
    split
    · simp
    · split <;> simp

/-- C114: nor must letters be replaced in ANSI output: in capitals `m` becomes `M`, which deletes lines. -/
theorem C114_capitals_counterexample :
    ∃ out, AnsiFinished stringSink StdString.new [(['a'], ⟨.Red, .Default, .Normal⟩)] out ∧
      out.flatMap (fun c => [c.toUpper]) = str "\x1b[31MA\x1b[0M" ∧
      (Vt.Screen.fresh.feed ⟨.exclusive, false⟩ (out.flatMap fun c => [c.toUpper])).events ≠
        (flatten [(['A'], ⟨.Red, .Default, .Normal⟩)]).map Vt.expected := by
  exact ⟨_, (ansiFinished_exists stringSink stringSink_accepting StdString.new _).2, by decide +kernel, by decide +kernel⟩

end Stylish.Props
