import Verif.Lemmas.Browser
import Verif.Props.Lines
/-
C70: what a browser shows of the HTML output.
-/

namespace Stylish.Props

open Spec Browser

variable {T : Type} [FmtWrite T] {names : Names}

/-! ## C70 -/

theorem lineBreaks_other (c : Char) (st : Style) (t : Styled) (h : c ≠ '\r') :
    lineBreaks ((c, st) :: t) = (c, st) :: lineBreaks t := by
  cases t with
  | nil => simp [lineBreaks, h]
  | cons x t => rw [lineBreaks, if_neg h]

theorem switch_eq_nil (a b : Style) (h : htmlSwitch a b = []) : a = b := by
  by_cases hab : a = b
  · exact hab
  · rw [htmlSwitch_eq, if_neg hab] at h
    split at h
    · rename_i hb
      subst hb
      simp [htmlClose, hab] at h
    · simp [str] at h

theorem cr_switch (a b : Style) : '\r' ∉ htmlSwitch a b := fun h =>
  absurd (htmlSwitch_printable a b _ h) (by decide)

theorem head_switch (a b : Style) (s : Str) (h : htmlSwitch a b ≠ []) : (htmlSwitch a b ++ s).head? ≠ some '\n' := by
  cases e : htmlSwitch a b with
  | nil => exact absurd e h
  | cons c l =>
    simp only [List.cons_append, List.head?_cons]
    rintro e2
    obtain rfl := Option.some.inj e2
    exact absurd (htmlSwitch_printable a b '\n' (by rw [e]; simp)) (by decide)

theorem cr_enc (c : Char) (h : c ≠ '\r') : '\r' ∉ htmlEnc c := by
  unfold htmlEnc htmlEntity
  by_cases h1 : c = '<'; · subst h1; decide
  by_cases h2 : c = '>'; · subst h2; decide
  by_cases h3 : c = '&'; · subst h3; decide
  by_cases h4 : c = '"'; · subst h4; decide
  by_cases h5 : c = '\''; · subst h5; decide
  simp [h1, h2, h3, h4, h5]
  exact fun e => h e.symm

theorem enc_ne_nil (c : Char) : htmlEnc c ≠ [] := by
  unfold htmlEnc htmlEntity
  by_cases h1 : c = '<'; · subst h1; decide
  by_cases h2 : c = '>'; · subst h2; decide
  by_cases h3 : c = '&'; · subst h3; decide
  by_cases h4 : c = '"'; · subst h4; decide
  by_cases h5 : c = '\''; · subst h5; decide
  simp [h1, h2, h3, h4, h5]

/-- A text ends, rendered, with going back to the default style. -/
def renderEnd (cur : Style) (t : Styled) : Str :=
  renderWith htmlSwitch htmlEnc cur t ++ htmlSwitch (lastStyle cur t) Style.default

theorem renderEnd_cons (cur : Style) (c : Char) (st : Style) (t : Styled) :
    renderEnd cur ((c, st) :: t) = htmlSwitch cur st ++ (htmlEnc c ++ renderEnd st t) := by
  simp [renderEnd, renderWith, lastStyle]

theorem renderEnd_head (st : Style) (t : Styled) (h : ∀ v, t ≠ ('\n', st) :: v) :
    (renderEnd st t).head? ≠ some '\n' := by
  cases t with
  | nil =>
    simp only [renderEnd, renderWith, lastStyle, List.nil_append]
    by_cases e : htmlSwitch st Style.default = []
    · rw [e]; simp
    · simpa using head_switch st Style.default [] e
  | cons x v =>
    obtain ⟨d, st'⟩ := x
    rw [renderEnd_cons]
    by_cases e : htmlSwitch st st' = []
    · obtain rfl := switch_eq_nil _ _ e
      have hd : d ≠ '\n' := by rintro rfl; exact h v rfl
      have := htmlEnc_nl d hd
      rw [e, List.nil_append]
      cases e2 : htmlEnc d with
      | nil => exact absurd e2 (enc_ne_nil d)
      | cons a l =>
        rw [e2] at this
        simp at this ⊢
        exact fun h => this.1 h.symm
    · exact head_switch st st' _ e

theorem newlines_render (n : Nat) : ∀ (t : Styled), t.length ≤ n → ∀ cur,
    newlines (renderEnd cur t) = renderEnd cur (lineBreaks t) := by
  induction n with
  | zero =>
    intro t ht cur
    obtain rfl := List.eq_nil_of_length_eq_zero (Nat.le_zero.1 ht)
    have := newlines_append (htmlSwitch cur Style.default) [] (cr_switch _ _)
    rw [show newlines [] = [] from rfl, List.append_nil] at this
    simpa [renderEnd, renderWith, lastStyle, lineBreaks] using this
  | succ n ih =>
    intro t ht cur
    cases t with
    | nil =>
      have := newlines_append (htmlSwitch cur Style.default) [] (cr_switch _ _)
      rw [show newlines [] = [] from rfl, List.append_nil] at this
      simpa [renderEnd, renderWith, lastStyle, lineBreaks] using this
    | cons x u =>
      obtain ⟨c, st⟩ := x
      have hu : u.length ≤ n := Nat.le_of_succ_le_succ ht
      rw [renderEnd_cons, newlines_append _ _ (cr_switch _ _)]
      by_cases hc : c = '\r'
      · subst hc
        have e : htmlEnc '\r' = ['\r'] := by decide
        rw [e, List.singleton_append]
        by_cases hu2 : ∃ v, u = ('\n', st) :: v
        · obtain ⟨v, rfl⟩ := hu2
          rw [renderEnd_cons, htmlSwitch_self, List.nil_append, show htmlEnc '\n' = ['\n'] from by decide,
            List.singleton_append, newlines, ih v (by simp at hu; omega) st]
          rw [lineBreaks, if_pos rfl, if_pos ⟨rfl, rfl⟩, renderEnd_cons, show htmlEnc '\n' = ['\n'] from by decide]
          rfl
        · have hh : ∀ v, u ≠ ('\n', st) :: v := fun v e => hu2 ⟨v, e⟩
          rw [newlines_cr _ (renderEnd_head st u hh), ih u hu st]
          have : lineBreaks (('\r', st) :: u) = ('\n', st) :: lineBreaks u := by
            cases u with
            | nil => rfl
            | cons y v =>
              obtain ⟨d, st'⟩ := y
              rw [lineBreaks, if_pos rfl, if_neg]
              rintro ⟨rfl, rfl⟩
              exact hh v rfl
          rw [this, renderEnd_cons, show htmlEnc '\n' = ['\n'] from by decide]
          rfl
      · rw [newlines_append _ _ (cr_enc c hc), ih u hu st, lineBreaks_other c st u hc, renderEnd_cons]

theorem newlines_htmlRender (t : Styled) : newlines (htmlRender t) = htmlRender (lineBreaks t) :=
  newlines_render t.length t (Nat.le_refl _) _

theorem newlines_seam (n : Nat) : ∀ a : Str, a.length ≤ n → ∀ b : Str,
    (a.getLast? ≠ some '\r' ∨ b.head? ≠ some '\n') → newlines (a ++ b) = newlines a ++ newlines b := by
  induction n with
  | zero =>
    intro a ha b _
    obtain rfl := List.eq_nil_of_length_eq_zero (Nat.le_zero.1 ha)
    rfl
  | succ n ih =>
    intro a ha b h
    cases a with
    | nil => rfl
    | cons c a =>
      have ha : a.length ≤ n := Nat.le_of_succ_le_succ ha
      by_cases hc : c = '\r'
      · subst hc
        cases a with
        | nil =>
          have hb : b.head? ≠ some '\n' := by simpa using h
          show newlines ('\r' :: b) = ['\n'] ++ newlines b
          rw [newlines_cr b hb]
          rfl
        | cons d a =>
          have hl : (d :: a).getLast? ≠ some '\r' ∨ b.head? ≠ some '\n' := by simpa [List.getLast?_cons_cons] using h
          by_cases hd : d = '\n'
          · subst hd
            have := ih ('\n' :: a) (by simp at ha ⊢; omega) b hl
            have e : ∀ x, newlines ('\r' :: '\n' :: x) = newlines ('\n' :: x) := by
              intro x
              have e1 := newlines_append ['\n'] x (by decide)
              exact e1.symm
            rw [List.cons_append, List.cons_append, e, e, ← List.cons_append, this]
          · have hd1 : (d :: a).head? ≠ some '\n' := by simpa using hd
            have hd2 : (d :: a ++ b).head? ≠ some '\n' := by simpa using hd
            rw [List.cons_append, newlines_cr _ hd2, newlines_cr _ hd1, ih _ (by simp at ha ⊢; omega) b hl, List.cons_append]
      · have hl : a.getLast? ≠ some '\r' ∨ b.head? ≠ some '\n' := by
          cases a with
          | nil => exact .inl (by simp)
          | cons d a => simpa [List.getLast?_cons_cons] using h
        have e : ∀ x, newlines (c :: x) = c :: newlines x := fun x => by
          simpa using newlines_append [c] x (by simpa using fun e => hc e.symm)
        rw [List.cons_append, e, e, ih a ha b hl, List.cons_append]

theorem lastStyle_lineBreaks (n : Nat) : ∀ (t : Styled), t.length ≤ n → ∀ cur,
    lastStyle cur (lineBreaks t) = lastStyle cur t := by
  induction n with
  | zero =>
    intro t ht cur
    obtain rfl := List.eq_nil_of_length_eq_zero (Nat.le_zero.1 ht)
    rfl
  | succ n ih =>
    intro t ht cur
    cases t with
    | nil => rfl
    | cons x u =>
      obtain ⟨c, st⟩ := x
      have hu : u.length ≤ n := Nat.le_of_succ_le_succ ht
      by_cases hc : c = '\r'
      · subst hc
        cases u with
        | nil => rfl
        | cons y v =>
          obtain ⟨d, st'⟩ := y
          rw [lineBreaks, if_pos rfl]
          split
          · rename_i h
            obtain ⟨rfl, rfl⟩ := h
            simp only [lastStyle]
            exact ih v (by simp at hu; omega) st
          · simp only [lastStyle]
            exact ih _ hu st
      · rw [lineBreaks_other c st u hc]
        simp only [lastStyle]
        exact ih u hu st

theorem newlines_renderWith (t : Styled) : newlines (renderWith htmlSwitch htmlEnc Style.default t) =
    renderWith htmlSwitch htmlEnc Style.default (lineBreaks t) := by
  have h := newlines_htmlRender t
  unfold htmlRender at h
  rw [newlines_seam _ _ (Nat.le_refl _), lastStyle_lineBreaks _ t (Nat.le_refl _)] at h
  · have e := newlines_append (htmlSwitch (lastStyle Style.default t) Style.default) [] (cr_switch _ _)
    rw [show newlines [] = [] from rfl, List.append_nil] at e
    rw [e] at h
    exact List.append_cancel_right h
  · by_cases e : htmlSwitch (lastStyle Style.default t) Style.default = []
    · rw [e]; exact .inr (by simp)
    · exact .inr (by simpa using head_switch _ _ [] e)

/-- The tokens of what was written. -/
theorem tokenize_render (h : names.Standard) (t : Styled) (after : Str) :
    Browser.tokens names 0 .data (renderWith htmlSwitch htmlEnc Style.default t ++ after) =
      (renderTokens Style.default t).flatMap browserTokens ++ Browser.tokens names 0 .data after :=
  tokens_of_strict h after _ _ (Nat.le_refl _) _ (lex_render _ _)

theorem tokenize_htmlRender (h : names.Standard) (t : Styled) (after : Str) :
    Browser.tokens names 0 .data (htmlRender t ++ after) =
      (renderTokens Style.default t ++ switchTokens (lastStyle Style.default t) Style.default).flatMap browserTokens ++
        Browser.tokens names 0 .data after :=
  tokens_of_strict h after _ _ (Nat.le_refl _) _ (tokens_htmlRender t)

theorem build_endTag (ts : List Token) : ∀ stack, build stack (ts ++ [.endTag (str "span")]) = build stack ts := by
  induction ts with
  | nil => intro stack; simp [build]
  | cons t ts ih => intro stack; cases t <;> simp [build, ih]

theorem shows_htmlRender (h : names.Standard) (t : Styled) : shows names (htmlRender t) = some (visible t) := by
  unfold shows tokenize visible
  have e := tokenize_htmlRender h (lineBreaks t) []
  rw [List.append_nil, show Browser.tokens names 0 .data [] = [] from rfl, List.append_nil] at e
  rw [newlines_htmlRender, e]
  apply build_of_strict
  have := read_htmlRender (lineBreaks t)
  rw [HtmlReader.read, tokens_htmlRender] at this
  exact this

theorem shows_render (h : names.Standard) (t : Styled) :
    shows names (renderWith htmlSwitch htmlEnc Style.default t) = some (visible t) := by
  rw [← shows_htmlRender h t]
  unfold shows tokenize
  have e := tokenize_htmlRender h (lineBreaks t) []
  have e' := tokenize_render h (lineBreaks t) []
  rw [List.append_nil, show Browser.tokens names 0 .data [] = [] from rfl, List.append_nil] at e e'
  rw [newlines_htmlRender, newlines_renderWith, e, e', List.flatMap_append]
  unfold switchTokens
  split
  · simp
  · unfold closeTokens openTokens
    split
    · simp
    · simp [browserTokens, build_endTag]

/-- C70: what a browser shows of the output is the text that was written, every character in the style it was
written in; except that line breaks are normalised and NUL is dropped, as in every page. It makes no difference
whether `finish` was called. -/
theorem C70_shows (names : Names) (hn : names.Standard) (k : FmtSink T) (t : T) (chs : List Chunk) (out : Str)
    (h : HtmlFinished k t chs out ∨ HtmlWrote k t chs out) : shows names out = some (visible (flatten chs)) := by
  rcases h with h | h
  · rw [htmlFinished_eq k t chs out h, shows_htmlRender hn]
  · rw [htmlWrote_eq k t chs out h, shows_render hn]

theorem lineBreaks_id (t : Styled) (h : ∀ x ∈ t, x.1 ≠ '\r') : lineBreaks t = t := by
  induction t with
  | nil => rfl
  | cons x t ih =>
    obtain ⟨c, st⟩ := x
    rw [lineBreaks_other c st t (h (c, st) (by simp)), ih fun y hy => h y (by simp [hy])]

/-- C70: text without CR and NUL is shown as it is. -/
theorem C70_exact (names : Names) (hn : names.Standard) (k : FmtSink T) (t : T) (chs : List Chunk) (out : Str)
    (h : HtmlFinished k t chs out ∨ HtmlWrote k t chs out)
    (hcr : ∀ x ∈ flatten chs, x.1 ≠ '\r' ∧ x.1 ≠ '\x00') : shows names out = some (flatten chs) := by
  rw [C70_shows names hn k t chs out h, visible, lineBreaks_id _ (fun x hx => (hcr x hx).1), noNul,
    List.filter_eq_self.2]
  intro x hx
  simpa using (hcr x hx).2

/-- A token the writer may cause: a character, a span with just a style, one of the given styles, or its end. -/
def OwnToken (styles : List Style) : Token → Prop
  | .char _ => True
  | .startTag name attrs selfClosing =>
    name = str "span" ∧ selfClosing = false ∧
      ∃ v st, attrs = [(str "style", v)] ∧ st ∈ styles ∧ HtmlReader.styleAttr v ⟨.Default, .Default, .Normal⟩ = some st
  | .endTag name => name = str "span"
  | .parseError => False
  | .outside => False

theorem ownToken_switch (cur st : Style) (styles : List Style) (hst : st = Style.default ∨ st ∈ styles) :
    ∀ tok ∈ (switchTokens cur st).flatMap browserTokens, OwnToken styles tok := by
  unfold switchTokens
  split
  · simp
  · unfold closeTokens openTokens
    intro tok
    rw [List.flatMap_append, List.mem_append]
    rintro (h | h)
    · split at h
      · simp at h
      · obtain rfl : tok = .endTag (str "span") := by simpa [browserTokens] using h
        exact rfl
    · split at h
      · simp at h
      · rename_i hd
        obtain rfl : tok = .startTag (str "span") [(str "style", valueOf st)] false := by
          simpa [browserTokens] using h
        exact ⟨rfl, rfl, _, _, rfl, hst.resolve_left hd, styleAttr_valueOf st hd⟩

theorem ownToken_render (t : Styled) (h : ∀ x ∈ t, x.1 ≠ '\x00') (styles : List Style)
    (hs : ∀ x ∈ t, x.2 ∈ styles) : ∀ cur, ∀ tok ∈ (renderTokens cur t).flatMap browserTokens, OwnToken styles tok := by
  induction t with
  | nil => intro cur tok hm; simp [renderTokens] at hm
  | cons x t ih =>
    obtain ⟨c, st⟩ := x
    intro cur tok hm
    rw [renderTokens, List.flatMap_append, List.mem_append, List.flatMap_cons, List.mem_append] at hm
    rcases hm with hm | hm | hm
    · exact ownToken_switch cur st styles (.inr (hs (c, st) (by simp))) tok hm
    · have hc : c ≠ '\x00' := h (c, st) (by simp)
      obtain rfl : tok = .char c := by simpa [browserTokens, hc] using hm
      exact True.intro
    · exact ih (fun y hy => h y (by simp [hy])) (fun y hy => hs y (by simp [hy])) st tok hm

theorem mem_lineBreaks (n : Nat) : ∀ (t : Styled), t.length ≤ n → ∀ x ∈ lineBreaks t,
    x ∈ t ∨ (x.1 = '\n' ∧ ('\r', x.2) ∈ t) := by
  induction n with
  | zero =>
    intro t ht x hx
    obtain rfl := List.eq_nil_of_length_eq_zero (Nat.le_zero.1 ht)
    simp [lineBreaks] at hx
  | succ n ih =>
    intro t ht x hx
    cases t with
    | nil => simp [lineBreaks] at hx
    | cons y u =>
      obtain ⟨c, st⟩ := y
      have hu : u.length ≤ n := Nat.le_of_succ_le_succ ht
      have up : ∀ v : Styled, (∀ z ∈ v, z ∈ u) → (x ∈ v ∨ (x.1 = '\n' ∧ ('\r', x.2) ∈ v)) →
          x ∈ (c, st) :: u ∨ (x.1 = '\n' ∧ ('\r', x.2) ∈ (c, st) :: u) := by
        rintro v hv (h | ⟨h, h'⟩)
        · exact .inl (List.mem_cons_of_mem _ (hv _ h))
        · exact .inr ⟨h, List.mem_cons_of_mem _ (hv _ h')⟩
      by_cases hc : c = '\r'
      · subst hc
        cases u with
        | nil =>
          obtain rfl : x = ('\n', st) := by simpa [lineBreaks] using hx
          exact .inr ⟨rfl, by simp⟩
        | cons y v =>
          obtain ⟨d, st'⟩ := y
          rw [lineBreaks, if_pos rfl] at hx
          split at hx
          · rcases List.mem_cons.1 hx with rfl | hx
            · exact .inr ⟨rfl, by simp⟩
            · exact up v (fun z hz => List.mem_cons_of_mem _ hz) (ih v (by simp at hu; omega) x hx)
          · rcases List.mem_cons.1 hx with rfl | hx
            · exact .inr ⟨rfl, by simp⟩
            · exact up _ (fun z hz => hz) (ih _ hu x hx)
      · rw [lineBreaks_other c st u hc] at hx
        rcases List.mem_cons.1 hx with rfl | hx
        · exact .inl (by simp)
        · exact up _ (fun z hz => hz) (ih _ hu x hx)

/-- C70: for text without NUL the browser sees nothing but characters and spans with a style that was written
with, and no parse error. -/
theorem C70_only_spans (names : Names) (hn : names.Standard) (k : FmtSink T) (t : T) (chs : List Chunk) (out : Str)
    (h : HtmlFinished k t chs out ∨ HtmlWrote k t chs out) (hnul : ∀ x ∈ flatten chs, x.1 ≠ '\x00') :
    ∀ tok ∈ tokenize names out, OwnToken ((flatten chs).map Prod.snd) tok := by
  have h1 : ∀ x ∈ lineBreaks (flatten chs), x.1 ≠ '\x00' := by
    intro x hx
    rcases mem_lineBreaks _ _ (Nat.le_refl _) x hx with h | h
    · exact hnul x h
    · rw [h.1]; decide
  have h2 : ∀ x ∈ lineBreaks (flatten chs), x.2 ∈ (flatten chs).map Prod.snd := by
    intro x hx
    rcases mem_lineBreaks _ _ (Nat.le_refl _) x hx with h | h
    · exact List.mem_map.2 ⟨x, h, rfl⟩
    · exact List.mem_map.2 ⟨_, h.2, rfl⟩
  intro tok hm
  unfold tokenize at hm
  rcases h with h | h
  · have e := tokenize_htmlRender hn (lineBreaks (flatten chs)) []
    rw [List.append_nil, show Browser.tokens names 0 .data [] = [] from rfl, List.append_nil] at e
    rw [htmlFinished_eq k t chs out h, newlines_htmlRender, e, List.flatMap_append, List.mem_append] at hm
    rcases hm with hm | hm
    · exact ownToken_render _ h1 _ h2 _ tok hm
    · exact ownToken_switch _ _ _ (.inl rfl) tok hm
  · have e := tokenize_render hn (lineBreaks (flatten chs)) []
    rw [List.append_nil, show Browser.tokens names 0 .data [] = [] from rfl, List.append_nil] at e
    rw [htmlWrote_eq k t chs out h, newlines_renderWith, e] at hm
    exact ownToken_render _ h1 _ h2 _ tok hm

/-- C70: the output has no influence on how the rest of the page is read: it ends outside any tag and character
reference. (CR at the end and LF at the start of the rest would be one line break.) -/
theorem C70_embedded (names : Names) (hn : names.Standard) (k : FmtSink T) (t : T) (chs : List Chunk)
    (out rest : Str) (h : HtmlFinished k t chs out ∨ HtmlWrote k t chs out)
    (hseam : out.getLast? ≠ some '\r' ∨ rest.head? ≠ some '\n') :
    tokenize names (out ++ rest) = tokenize names out ++ tokenize names rest := by
  unfold tokenize
  rw [newlines_seam _ _ (Nat.le_refl _) _ hseam]
  rcases h with h | h
  · have e := tokenize_htmlRender hn (lineBreaks (flatten chs))
    have e' := e []
    rw [List.append_nil, show Browser.tokens names 0 .data [] = [] from rfl, List.append_nil] at e'
    rw [htmlFinished_eq k t chs out h, newlines_htmlRender, e, e']
  · have e := tokenize_render hn (lineBreaks (flatten chs))
    have e' := e []
    rw [List.append_nil, show Browser.tokens names 0 .data [] = [] from rfl, List.append_nil] at e'
    rw [htmlWrote_eq k t chs out h, newlines_renderWith, e, e']

/-- The strict reader of C19 is sound: a browser shows what it reads. -/
theorem C70_reader_sound (names : Names) (hn : names.Standard) (page : Str) (r : Styled)
    (h : HtmlReader.read page = some r) (hcr : '\r' ∉ page) : shows names page = some (noNul r) := by
  unfold HtmlReader.read at h
  obtain ⟨ts, h1, h2⟩ := Option.bind_eq_some_iff.1 h
  have e1 := newlines_append page [] hcr
  rw [show newlines [] = [] from rfl, List.append_nil] at e1
  have e := tokens_of_strict hn [] _ page (Nat.le_refl _) ts h1
  rw [List.append_nil, show Browser.tokens names 0 .data [] = [] from rfl, List.append_nil] at e
  rw [shows, tokenize, e1, e]
  exact build_of_strict ts [] r h2

/-! ### A table of names, samples and counterexamples -/

/-- Part of the table of the standard, with names with and without semicolon, one a prefix of the other. -/
def someNames : Names := fun n =>
  [(str "lt;", ['<']), (str "lt", ['<']), (str "gt;", ['>']), (str "gt", ['>']), (str "amp;", ['&']), (str "amp", ['&']),
   (str "quot;", ['"']), (str "quot", ['"']), (str "ltimes;", ['⋉']), (str "not", ['¬']), (str "notin;", ['∉'])].lookup n

theorem someNames_standard : someNames.Standard := by
  refine ⟨by decide, by decide, by decide, by decide, ?_⟩
  have key : ∀ (l : List (Str × List Char)), (∀ x ∈ l, ∀ a b, x.1 = a ++ ';' :: b → b = []) →
      ∀ a b, l.lookup (a ++ ';' :: b) ≠ none → b = [] := by
    intro l
    induction l with
    | nil => intro _ a b h; simp [List.lookup] at h
    | cons x l ih =>
      obtain ⟨n, v⟩ := x
      intro hl a b h
      by_cases e : a ++ ';' :: b = n
      · exact hl (n, v) (by simp) a b e.symm
      · refine ih (fun y hy => hl y (by simp [hy])) a b ?_
        rw [List.lookup, show (a ++ ';' :: b == n) = false from by simpa using e] at h
        exact h
  refine key _ ?_
  have last : ∀ s : Str, ';' ∉ s.dropLast → ∀ a b, s = a ++ ';' :: b → b = [] := by
    rintro s hs a b rfl
    cases b with
    | nil => rfl
    | cons c b => exact absurd (by simp) hs
  intro x hx
  refine last x.1 ?_
  revert x
  decide

/-- The hypotheses of the theorems above are met. -/
example : someNames.Standard ∧ HtmlFinished stringSink StdString.new htmlSample htmlSampleOut ∧
    shows someNames htmlSampleOut = some (flatten htmlSample) :=
  ⟨someNames_standard, htmlSample_finished,
    C70_exact someNames someNames_standard _ _ _ _ (.inl htmlSample_finished) (by decide)⟩

/-- Without escaping the browser would see tags and references: none of these pages shows its source. -/
example : shows someNames (str "a<b") = some (['a'].map (·, Style.default)) ∧
    shows someNames (str "a&ltb") = some ((str "a<b").map (·, Style.default)) ∧
    shows someNames (str "&notin") = some ((str "¬in").map (·, Style.default)) ∧
    shows someNames (str "a<script>b") = none ∧
    shows someNames (str "<span style=color:red>x") = some [('x', ⟨.Red, .Default, .Normal⟩)] ∧
    shows someNames (str "&#65;&#x42;&#0;") = some (['A', 'B', '\uFFFD'].map (·, Style.default)) ∧
    shows someNames (str "<SPAN STYLE='color:red' style=x ID=1/>y</Span >z") =
      some [('y', ⟨.Red, .Default, .Normal⟩), ('z', Style.default)] ∧
    shows someNames (str "1 < 2 & 3 &; 4") = some ((str "1 < 2 & 3 &; 4").map (·, Style.default)) := by
  decide +kernel

/-- C70 needs the exception for line breaks: CR and LF in two styles, one line break in the text, are two line
breaks on the page; in one style they are one. -/
theorem C70_crlf_counterexample (names : Names) (hn : names.Standard) :
    (∃ out, HtmlFinished stringSink StdString.new [(['\r'], ⟨.Red, .Default, .Normal⟩), (['\n'], Style.default)] out ∧
      shows names out = some [('\n', ⟨.Red, .Default, .Normal⟩), ('\n', Style.default)]) ∧
    (∃ out, HtmlFinished stringSink StdString.new [(['\r', '\n'], Style.default)] out ∧
      shows names out = some [('\n', Style.default)]) := by
  constructor
  · refine ⟨_, (htmlFinished_exists stringSink stringSink_accepting StdString.new _).2, ?_⟩
    rw [shows_htmlRender hn]
    decide
  · refine ⟨_, (htmlFinished_exists stringSink stringSink_accepting StdString.new _).2, ?_⟩
    rw [shows_htmlRender hn]
    decide

end Stylish.Props
