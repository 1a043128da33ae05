import Verif.Spec.Pre
import Verif.Props.Browser
/-
C105: white space in the HTML output.
-/

namespace Stylish.Props

open Spec Browser

variable {T : Type} [FmtWrite T] {names : Names}

/-! ## C105 -/

namespace Pre

theorem open_tag (rest : Str) : tokenize names (str "<pre>" ++ rest) =
    .startTag (str "pre") [] false :: tokenize names rest := by
  unfold tokenize
  rw [newlines_append _ _ (by decide)]
  rfl

theorem close_tag : tokenize names (str "</pre>") = [.endTag (str "pre")] := by
  unfold tokenize
  rfl

theorem build_no_pre (ts : List Token) : ∀ (stack : List Style) (r : Styled), build stack ts = some r →
    ∀ x ∈ ts, x ≠ .endTag (str "pre") := by
  induction ts with
  | nil => intro _ _ _ x hx; simp at hx
  | cons t ts ih =>
    intro stack r h x hx
    cases t with
    | char c =>
      simp only [build, Option.map_eq_some_iff] at h
      obtain ⟨r', h, -⟩ := h
      rcases List.mem_cons.1 hx with rfl | hx
      · simp
      · exact ih _ _ h x hx
    | startTag name attrs sc =>
      rw [build] at h
      split at h
      · obtain ⟨st, -, h⟩ := Option.bind_eq_some_iff.1 h
        rcases List.mem_cons.1 hx with rfl | hx
        · simp
        · exact ih _ _ h x hx
      · cases h
    | endTag name =>
      rw [build] at h
      split at h
      · rename_i hn
        rcases List.mem_cons.1 hx with rfl | hx
        · rw [hn]; decide
        · exact ih _ _ h x hx
      · cases h
    | parseError =>
      rw [build] at h
      rcases List.mem_cons.1 hx with rfl | hx
      · simp
      · exact ih _ _ h x hx
    | outside => cases h

/-- A page that is a `pre` around something a browser can show. -/
theorem preShows_of (out : Str) (r : Styled) (hs : shows names out = some r)
    (he : tokenize names (out ++ str "</pre>") = tokenize names out ++ tokenize names (str "</pre>")) :
    preShows names (str "<pre>" ++ out ++ str "</pre>") = build [] (afterPre (tokenize names out)) := by
  rw [preShows, List.append_assoc, open_tag, he, close_tag, preContent, if_pos rfl, List.takeWhile_append_of_pos]
  · simp
  · intro x hx
    simpa using build_no_pre _ _ _ hs x hx

/-- The line feed is dropped exactly where no tag comes first. -/
theorem afterPre_tokens (t : Styled) (more : List HtmlReader.Token)
    (hm : t = [] → more = []) (r : Styled)
    (h : build [] ((renderTokens Style.default t ++ more).flatMap browserTokens) = some r) (hr : r = noNul t) :
    build [] (afterPre ((renderTokens Style.default t ++ more).flatMap browserTokens)) =
      some (noNul (dropBreak t)) := by
  subst hr
  cases t with
  | nil => rw [hm rfl]; rfl
  | cons x t =>
    obtain ⟨c, st⟩ := x
    by_cases hst : st = Style.default
    · subst hst
      have e : renderTokens Style.default ((c, Style.default) :: t) =
          .char c :: renderTokens Style.default t := by
        simp [renderTokens, switchTokens]
      rw [e] at h ⊢
      simp only [List.cons_append, List.flatMap_cons] at h ⊢
      by_cases hc : c = '\n'
      · subst hc
        have e1 : browserTokens (.char '\n') = [.char '\n'] := rfl
        rw [e1] at h ⊢
        simp only [List.cons_append, List.nil_append, afterPre, if_true, build] at h ⊢
        obtain ⟨r', h1, h2⟩ := Option.map_eq_some_iff.1 h
        rw [h1]
        have : dropBreak (('\n', Style.default) :: t) = t := by
          rw [dropBreak, if_pos ⟨rfl, rfl⟩]
        rw [this]
        simp [noNul] at h2
        simp [noNul, h2]
      · have : dropBreak ((c, Style.default) :: t) = (c, Style.default) :: t := by simp [dropBreak, hc]
        rw [this, ← h]
        congr 1
        by_cases h0 : c = '\x00'
        · rw [show browserTokens (.char c) = [.parseError, .char c] by rw [browserTokens, if_pos h0]]
          simp [afterPre, hc]
        · rw [show browserTokens (.char c) = [.char c] by rw [browserTokens, if_neg h0]]
          simp [afterPre, hc]
    · have : dropBreak ((c, st) :: t) = (c, st) :: t := by
        rw [dropBreak, if_neg]
        rintro ⟨-, h⟩
        exact hst h
      rw [this, ← h]
      have e : ∃ l, renderTokens Style.default ((c, st) :: t) = .open (valueOf st) :: l := by
        refine ⟨.char c :: renderTokens st t, ?_⟩
        simp [renderTokens, switchTokens, closeTokens, openTokens, hst, Ne.symm hst]
      obtain ⟨l, e⟩ := e
      rw [e]
      rfl

end Pre

/-- C105: in a `pre`, the output is shown as the text that was written, every character in its style, except that a line
feed at the start is lost if it is in no style (and that line breaks are normalised and NUL is dropped, as in every
page). It makes no difference whether `finish` was called. -/
theorem C105_pre (hn : names.Standard) (k : FmtSink T) (t : T) (chs : List Chunk) (out : Str)
    (h : HtmlFinished k t chs out ∨ HtmlWrote k t chs out) :
    preShows names (str "<pre>" ++ out ++ str "</pre>") = some (noNul (dropBreak (lineBreaks (flatten chs)))) := by
  have hs := C70_shows names hn k t chs out h
  rw [Pre.preShows_of out _ hs (C70_embedded names hn k t chs out _ h (.inr (by decide)))]
  unfold shows at hs
  rcases h with h | h
  · have e := tokenize_htmlRender hn (lineBreaks (flatten chs)) []
    rw [List.append_nil, show Browser.tokens names 0 .data [] = [] from rfl, List.append_nil] at e
    rw [htmlFinished_eq k t chs out h] at hs ⊢
    rw [tokenize, newlines_htmlRender, e] at hs ⊢
    exact Pre.afterPre_tokens _ _ (fun h => by rw [h]; rfl) _ hs rfl
  · have e := tokenize_render hn (lineBreaks (flatten chs)) []
    rw [List.append_nil, show Browser.tokens names 0 .data [] = [] from rfl, List.append_nil] at e
    rw [htmlWrote_eq k t chs out h] at hs ⊢
    rw [tokenize, newlines_renderWith, e] at hs ⊢
    have := Pre.afterPre_tokens (lineBreaks (flatten chs)) [] (fun _ => rfl)
    rw [List.append_nil] at this
    exact this _ hs rfl

/-- C105: so in a `pre` the text is shown exactly if and only if there is no CR and no NUL in it and it does not begin with
a line feed in no style. -/
theorem C105_pre_exact (hn : names.Standard) (k : FmtSink T) (t : T) (chs : List Chunk) (out : Str)
    (h : HtmlFinished k t chs out ∨ HtmlWrote k t chs out) :
    preShows names (str "<pre>" ++ out ++ str "</pre>") = some (flatten chs) ↔
      (∀ x ∈ flatten chs, x.1 ≠ '\r' ∧ x.1 ≠ '\x00') ∧ (flatten chs).head? ≠ some ('\n', Style.default) := by
  rw [C105_pre hn k t chs out h]
  generalize flatten chs = t
  have noCr : ∀ (n : Nat) (t : Styled), t.length ≤ n → ∀ x ∈ lineBreaks t, x.1 ≠ '\r' := by
    intro n
    induction n with
    | zero =>
      intro t ht x hx
      obtain rfl := List.eq_nil_of_length_eq_zero (Nat.le_zero.1 ht)
      simp [lineBreaks] at hx
    | succ n ih =>
      intro t ht x hx
      match t with
      | [] => simp [lineBreaks] at hx
      | [(c, st)] =>
        rw [lineBreaks] at hx
        split at hx
        · simp at hx; subst hx; simp
        · rename_i hc; simp at hx; subst hx; exact hc
      | (c, st) :: (d, st') :: t =>
        simp only [List.length_cons] at ht
        rw [lineBreaks] at hx
        split at hx
        · split at hx
          · rcases List.mem_cons.1 hx with rfl | hx
            · simp
            · exact ih t (by omega) x hx
          · rcases List.mem_cons.1 hx with rfl | hx
            · simp
            · exact ih ((d, st') :: t) (by simp; omega) x hx
        · rename_i hc
          rcases List.mem_cons.1 hx with rfl | hx
          · exact hc
          · exact ih ((d, st') :: t) (by simp; omega) x hx
  have sub : ∀ t : Styled, ∀ x ∈ dropBreak t, x ∈ t := by
    intro t x hx
    cases t with
    | nil => exact hx
    | cons y t =>
      obtain ⟨c, st⟩ := y
      rw [dropBreak] at hx
      split at hx
      · exact List.mem_cons_of_mem _ hx
      · exact hx
  constructor
  · intro h
    have h := Option.some.inj h
    have h1 : ∀ x ∈ t, x.1 ≠ '\r' ∧ x.1 ≠ '\x00' := by
      intro x hx
      rw [← h] at hx
      obtain ⟨hx, h0⟩ := List.mem_filter.1 hx
      exact ⟨noCr _ _ (Nat.le_refl _) _ (sub _ x hx), by simpa using h0⟩
    refine ⟨h1, fun hh => ?_⟩
    rw [lineBreaks_id t fun x hx => (h1 x hx).1] at h
    cases t with
    | nil => simp at hh
    | cons y t =>
      obtain rfl : y = ('\n', Style.default) := by simpa using hh
      have hl := congrArg List.length h
      have : dropBreak (('\n', Style.default) :: t) = t := by rw [dropBreak, if_pos ⟨rfl, rfl⟩]
      rw [this] at hl
      have h2 : (noNul t).length ≤ t.length := List.length_filter_le _ _
      simp only [List.length_cons] at hl
      omega
  · rintro ⟨h1, h2⟩
    rw [lineBreaks_id t fun x hx => (h1 x hx).1]
    have : dropBreak t = t := by
      cases t with
      | nil => rfl
      | cons y t =>
        obtain ⟨c, st⟩ := y
        rw [dropBreak, if_neg]
        rintro ⟨rfl, rfl⟩
        exact h2 rfl
    rw [this, noNul, List.filter_eq_self.2]
    intro x hx
    simpa using (h1 x hx).2

/-! ### Normal flow -/

namespace Pre

theorem words_cons (word : Styled) (c : Char) (st : Style) (t : Styled) : words word ((c, st) :: t) =
    if isBlank c then (if word = [] then words [] t else word :: words [] t) else words (word ++ [(c, st)]) t := by
  rw [words.eq_def]

theorem words_collapse (t : Styled) : ∀ (started : Bool) (word : Styled), (started = false → word = []) →
    words word (collapse started none t) = words word t ∧
    ∀ r, words word (collapse started (some r) t) = (if word = [] then [] else [word]) ++ words [] t := by
  induction t with
  | nil =>
    intro started word _
    refine ⟨rfl, fun r => ?_⟩
    simp [collapse, words]
  | cons x t ih =>
    obtain ⟨c, st⟩ := x
    intro started word hw
    by_cases hb : isBlank c
    · have e : ∀ run, collapse started run ((c, st) :: t) = collapse started (some (blank c st run)) t := by
        intro run
        rw [collapse.eq_def]
        simp [hb]
      constructor
      · rw [e, (ih started word hw).2, words_cons, if_pos hb]
        split <;> simp
      · intro r
        rw [e, (ih started word hw).2, words_cons, if_pos hb]
        simp
    · have e : ∀ run, collapse started run ((c, st) :: t) = (match run with
          | some (_, st') => if started then [(' ', st')] else []
          | none => []) ++ (c, st) :: collapse true none t := by
        intro run
        rw [collapse.eq_def]
        cases run <;> simp [hb]
      constructor
      · rw [e, List.nil_append, words_cons, if_neg hb, words_cons, if_neg hb, (ih true _ (by simp)).1]
      · rintro ⟨b, st'⟩
        rw [e]
        cases started with
        | true =>
          simp only [if_true, List.cons_append, List.nil_append]
          rw [words_cons, if_pos (by decide), words_cons, if_neg hb, (ih true _ (by simp)).1, words_cons, if_neg hb]
          split <;> simp
        | false =>
          obtain rfl := hw rfl
          simp only [Bool.false_eq_true, if_false, List.nil_append, if_true]
          rw [words_cons, if_neg hb, (ih true _ (by simp)).1, words_cons, if_neg hb]

theorem words_ne (t : Styled) : ∀ word : Styled, word ≠ [] → words word t ≠ [] := by
  induction t with
  | nil => intro word h; simp [words, h]
  | cons x t ih =>
    obtain ⟨c, st⟩ := x
    intro word h
    rw [words_cons]
    split
    · simp
    · exact ih _ (by simp)

theorem spaced_cons (w : Str) (ws : List Str) : spaced (w :: ws) = w ++ if ws = [] then [] else ' ' :: spaced ws := by
  cases ws <;> simp [spaced]

theorem text_collapse (t : Styled) :
    (∀ run, text (collapse false run t) = spaced ((words [] t).map text)) ∧
    (∀ word, word ≠ [] → text word ++ text (collapse true none t) = spaced ((words word t).map text)) ∧
    (∀ r, text (collapse true (some r) t) = if words [] t = [] then [] else ' ' :: spaced ((words [] t).map text)) := by
  induction t with
  | nil =>
    refine ⟨fun _ => rfl, fun word h => ?_, fun _ => rfl⟩
    simp [collapse, words, h, spaced, text]
  | cons x t ih =>
    obtain ⟨c, st⟩ := x
    obtain ⟨iA, iB, iC⟩ := ih
    by_cases hb : isBlank c
    · have e : ∀ started run, collapse started run ((c, st) :: t) = collapse started (some (blank c st run)) t := by
        intro started run
        rw [collapse.eq_def]
        simp [hb]
      refine ⟨fun run => ?_, fun word h => ?_, fun r => ?_⟩
      · rw [e, iA, words_cons, if_pos hb, if_pos rfl]
      · rw [e, iC, words_cons, if_pos hb, if_neg h, List.map_cons, spaced_cons]
        simp
      · rw [e, iC, words_cons, if_pos hb, if_pos rfl]
    · have e : ∀ started run, collapse started run ((c, st) :: t) = (match run with
          | some (_, st') => if started then [(' ', st')] else []
          | none => []) ++ (c, st) :: collapse true none t := by
        intro started run
        rw [collapse.eq_def]
        cases run <;> simp [hb]
      have hB := iB [(c, st)] (by simp)
      have tc : ∀ l : Styled, text ((c, st) :: l) = c :: text l := fun _ => rfl
      refine ⟨fun run => ?_, fun word h => ?_, fun r => ?_⟩
      · rw [e, words_cons, if_neg hb, List.nil_append, ← hB]
        cases run <;> rfl
      · rw [e, words_cons, if_neg hb, ← iB _ (by simp)]
        simp [text]
      · rw [e, words_cons, if_neg hb, List.nil_append, if_neg (words_ne _ _ (by simp)), ← hB]
        rfl

end Pre

/-- C105: in normal flow, where white space is collapsed, the words of the text are shown, every character of them in its
style, and one space between two of them; so nothing of how the text is divided into lines, indented or padded. -/
theorem C105_flow (hn : names.Standard) (k : FmtSink T) (t : T) (chs : List Chunk) (out : Str)
    (h : HtmlFinished k t chs out ∨ HtmlWrote k t chs out) :
    ∃ r, flowShows names out = some r ∧ words [] r = words [] (visible (flatten chs)) ∧
      text r = spaced ((words [] (visible (flatten chs))).map text) := by
  refine ⟨_, ?_, (Pre.words_collapse _ false [] (fun _ => rfl)).1, (Pre.text_collapse _).1 none⟩
  rw [flowShows, C70_shows names hn k t chs out h]
  rfl

/-- C105: so in normal flow the text, if it has no CR and NUL, reads exactly as written if and only if it is words with
single spaces between. -/
theorem C105_flow_exact (hn : names.Standard) (k : FmtSink T) (t : T) (chs : List Chunk) (out : Str)
    (h : HtmlFinished k t chs out ∨ HtmlWrote k t chs out)
    (hcr : ∀ x ∈ flatten chs, x.1 ≠ '\r' ∧ x.1 ≠ '\x00') :
    (flowShows names out).map text = some (text (flatten chs)) ↔
      text (flatten chs) = spaced ((words [] (flatten chs)).map text) := by
  rw [flowShows, C70_exact names hn k t chs out h hcr, Option.map_some, Option.map_some, (Pre.text_collapse _).1 none,
    Option.some.injEq]
  exact eq_comm

/-! ### Samples -/

/-- Two lines, indented, the second in red: in a `pre` they are shown as they are, in normal flow as four words; with
a line feed at the start, a `pre` loses it, unless it is in a style. -/
example :
    let red : Style := ⟨.Red, .Default, .Normal⟩
    let page (s : Str) := str "<pre>" ++ s ++ str "</pre>"
    preShows someNames (page (str "a  b\n<span style=color:red>  c\td</span>")) =
      some ((str "a  b\n").map (·, Style.default) ++ (str "  c\td").map (·, red)) ∧
    flowShows someNames (str "a  b\n<span style=color:red>  c\td</span>") =
      some ((str "a b ").map (·, Style.default) ++ (str "c d").map (·, red)) ∧
    preShows someNames (page (str "\n\na")) = some ((str "\na").map (·, Style.default)) ∧
    preShows someNames (page (str "<span style=color:red>\na")) = some ((str "\na").map (·, red)) := by
  decide +kernel

/-- A finished output that begins with a line feed. -/
example : ∃ out, HtmlFinished stringSink StdString.new [(str "\na", Style.default)] out ∧
    (flatten [(str "\na", Style.default)]).head? = some ('\n', Style.default) :=
  ⟨_, (htmlFinished_exists stringSink stringSink_accepting StdString.new _).2, by decide⟩

/-- C105: that is why `<pre>` around a text is not the text. -/
theorem C105_pre_counterexample (hn : names.Standard) :
    let chs : List Chunk := [(str "\na", Style.default)]
    ∃ out, HtmlFinished stringSink StdString.new chs out ∧ shows names out = some (flatten chs) ∧
      preShows names (str "<pre>" ++ out ++ str "</pre>") = some [('a', Style.default)] := by
  intro chs
  have h := (htmlFinished_exists stringSink stringSink_accepting StdString.new chs).2
  refine ⟨_, h, C70_exact names hn _ _ _ _ (.inl h) (by decide), ?_⟩
  rw [C105_pre hn _ _ _ _ (.inl h)]
  decide

end Stylish.Props
