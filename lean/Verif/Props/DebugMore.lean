import Verif.Model.DebugMore
import Verif.Spec.DebugMore
import Verif.Lemmas.DebugLayout
import Verif.Props.Text
/-
`{:?}` of attributed strings and of writers: C117.
-/

namespace Stylish.Props

open Spec Spec.Debug DebugText

/-! ## C117 -/

namespace DebugMore

variable (shown : Char → Bool)

/-! ### Literals -/

theorem hexValue_digit (n : Nat) (h : n < 16) : hexValue n.digitChar = some n ∧ n.digitChar ≠ '}' ∧ n.digitChar ≠ '\n' := by
  have : ∀ n : Fin 16, hexValue n.val.digitChar = some n.val ∧ n.val.digitChar ≠ '}' ∧ n.val.digitChar ≠ '\n' := by decide +kernel
  exact this ⟨n, h⟩

theorem literal_hex (n : Nat) : ∀ rest, literal (.hex 0) (Nat.toDigits 16 n ++ rest) = literal (.hex n) rest := by
  induction n using Nat.strongRecOn with
  | ind n ih =>
    intro rest
    rw [Nat.toDigits_eq_if (by decide)]
    split
    · rename_i h
      obtain ⟨h1, h2, -⟩ := hexValue_digit n h
      rw [List.singleton_append, literal, if_neg h2, h1]
      simp
    · rename_i h
      obtain ⟨h1, h2, -⟩ := hexValue_digit (n % 16) (Nat.mod_lt _ (by decide))
      rw [List.append_assoc, ih (n / 16) (by omega), List.singleton_append, literal, if_neg h2, h1]
      show literal (.hex (16 * (n / 16) + n % 16)) rest = _
      rw [Nat.div_add_mod]

theorem literal_escape (c : Char) (rest : Str) :
    literal .chars (escapeDebug shown c ++ rest) = (literal .chars rest).map fun x => (c :: x.1, x.2) := by
  unfold escapeDebug
  by_cases h0 : c = '\x00'
  · subst h0; rfl
  rw [if_neg h0]
  by_cases ht : c = '\t'
  · subst ht; rfl
  rw [if_neg ht]
  by_cases hr : c = '\r'
  · subst hr; rfl
  rw [if_neg hr]
  by_cases hn : c = '\n'
  · subst hn; rfl
  rw [if_neg hn]
  by_cases hq : c = '"'
  · subst hq; rfl
  rw [if_neg hq]
  by_cases hb : c = '\\'
  · subst hb; rfl
  rw [if_neg hb]
  by_cases hs : shown c = true
  · rw [if_pos hs, List.singleton_append, literal, if_neg hq, if_neg hb]
  · rw [if_neg hs]
    have e : literal .chars (['\\', 'u', '{'] ++ Nat.toDigits 16 c.toNat ++ ['}'] ++ rest) =
        literal (.hex 0) (Nat.toDigits 16 c.toNat ++ ('}' :: rest)) := by
      simp [literal]
    rw [e, literal_hex, literal, if_pos rfl, Char.ofNat_toNat]

theorem literal_text (s rest : Str) : literal .chars (s.flatMap (escapeDebug shown) ++ '"' :: rest) = some (s, rest) := by
  induction s with
  | nil => rfl
  | cons c s ih => rw [List.flatMap_cons, List.append_assoc, literal_escape, ih]; rfl

theorem escape_line (c : Char) : '\n' ∉ escapeDebug shown c := by
  have hhex : ∀ n, '\n' ∉ Nat.toDigits 16 n := by
    intro n
    induction n using Nat.strongRecOn with
    | ind n ih =>
      rw [Nat.toDigits_eq_if (by decide)]
      split
      · rename_i h
        have := (hexValue_digit n h).2.2
        simpa using fun e => this e.symm
      · have := (hexValue_digit (n % 16) (Nat.mod_lt _ (by decide))).2.2
        have h2 := ih (n / 16) (by omega)
        simpa [h2] using fun e => this e.symm
  unfold escapeDebug
  repeat' split
  all_goals first | decide | skip
  · rename_i h _ _ _; simpa using fun e => h e.symm
  · simpa using hhex _

theorem text_line (s : Str) : '\n' ∉ s.flatMap (escapeDebug shown) := by
  intro h
  obtain ⟨c, -, hc⟩ := List.mem_flatMap.1 h
  exact escape_line shown c hc

/-! ### Words -/

theorem valWords_style (st : Style) : valWords st.debug = styleWords st := by
  have hc : ∀ c : Color, valWords c.debug = [colorName c] := by intro c; cases c <;> rfl
  have hi : ∀ c : Intensity, valWords c.debug = [intensityName c] := by intro c; cases c <;> rfl
  simp only [Style.debug, valWords, fieldWords, hc, hi, styleWords, List.nil_append, List.cons_append]

/-- The words of a list of styles. -/
def listWords : List (Nat × Style) → List Str
  | [] => []
  | p :: rest => Nat.toDigits 10 p.1 :: styleWords p.2 ++ listWords rest

theorem listWords_inj (l m : List (Nat × Style)) (h : listWords l = listWords m) : l = m := by
  induction l generalizing m with
  | nil => cases m with
    | nil => rfl
    | cons p m => exact absurd h (by simp [listWords])
  | cons p l ih =>
    cases m with
    | nil => exact absurd h (by simp [listWords])
    | cons q m =>
      simp only [listWords, List.cons_append] at h
      obtain ⟨h1, h2⟩ := List.cons.inj h
      rw [← valWords_style, ← valWords_style] at h2
      obtain ⟨h3, h4⟩ := style_inj h2
      have h5 := congrArg (Nat.ofDigitChars 10 · 0) h1
      simp only [Nat.ofDigitChars_ten_toDigits] at h5
      rw [ih m h4]
      obtain ⟨a, b⟩ := p
      obtain ⟨c, d⟩ := q
      simp_all

theorem plain_item (p : Nat × Style) (s : Str) :
    wordsFrom [] ((debugStart p).plain shown ++ s) = Nat.toDigits 10 p.1 :: styleWords p.2 ++ wordsFrom [] s := by
  simp only [debugStart, DebugNode.plain, DebugNodes.plain, List.nil_append, List.append_nil, List.append_assoc]
  rw [words_gaps _ _ (by decide +kernel), plain_words (.nat p.1) trivial _ (by show isWord ',' = false; decide),
    words_gaps _ _ (by decide +kernel), plain_words _ (named_style p.2) _ (by show isWord ')' = false; decide),
    words_gaps _ _ (by decide +kernel), valWords_style]
  rfl

theorem plain_items (l : List (Nat × Style)) (before : Str) (hb : ∀ c ∈ before, isWord c = false) (s : Str) :
    wordsFrom [] ((debugStarts l).plain shown before ++ s) = listWords l ++ wordsFrom [] s := by
  induction l generalizing before with
  | nil => rfl
  | cons p l ih =>
    simp only [debugStarts, DebugNodes.plain, List.append_assoc, listWords]
    rw [words_gaps _ _ hb, plain_item, ih _ (by decide +kernel)]

theorem pretty_item (p : Nat × Style) (s : Str) :
    wordsFrom [] ((debugStart p).pretty shown ++ s) = Nat.toDigits 10 p.1 :: styleWords p.2 ++ wordsFrom [] s := by
  simp only [debugStart, DebugNode.pretty, DebugNodes.pretty, List.append_nil, List.append_assoc]
  rw [words_gaps _ _ (by decide +kernel), words_pad _ _ _ _ (fun _ => rfl), List.append_assoc,
    pretty_words (.nat p.1) trivial _ (by show isWord ',' = false; decide), words_gaps _ _ (by decide +kernel),
    words_pad _ _ _ _ (fun _ => rfl), List.append_assoc,
    pretty_words _ (named_style p.2) _ (by show isWord ',' = false; decide),
    words_gaps _ _ (by decide +kernel), words_gaps _ _ (by decide +kernel), valWords_style]
  rfl

theorem pretty_items (l : List (Nat × Style)) (s : Str) :
    wordsFrom [] ((debugStarts l).pretty shown ++ s) = listWords l ++ wordsFrom [] s := by
  induction l with
  | nil => rfl
  | cons p l ih =>
    simp only [debugStarts, DebugNodes.pretty, List.append_assoc, listWords]
    rw [words_pad _ _ _ _ (fun _ => rfl), List.append_assoc, pretty_item, words_gaps _ _ (by decide +kernel), ih]

theorem pad_line (a b : Str) (h : '\n' ∉ a) : padLines false (a ++ b) = a ++ padLines false b := by
  induction a with
  | nil => rfl
  | cons c a ih =>
    have hc : c ≠ '\n' := by rintro rfl; simp at h
    rw [List.cons_append, padLines, decide_eq_false hc, ih (by intro h'; simp [h'] at h)]
    rfl

theorem pad_start (a b : Str) (h : '\n' ∉ a) (ha : a ≠ []) : padLines true (a ++ b) = str "    " ++ a ++ padLines false b := by
  cases a with
  | nil => exact absurd rfl ha
  | cons c a =>
    have hc : c ≠ '\n' := by rintro rfl; simp at h
    have := pad_line a b (by intro h'; simp [h'] at h)
    rw [List.cons_append, padLines, decide_eq_false hc, this, if_pos rfl]
    simp

/-! ### Structs that begin with a text -/

/-- What is shown of a struct whose first field is a text. -/
theorem shows (alternate : Bool) (name field : Str) (hn : '\n' ∉ field) (s : Str) (more : DebugNodeFields) :
    ∃ r rest, (DebugNode.struct name (.cons field (.text s) more)).shownAs shown alternate =
        name ++ (if alternate then str " {\n    " else str " { ") ++ field ++ str ": " ++ ['"'] ++ r ∧
      literal .chars r = some (s, rest) ∧
      rest = if alternate then str ",\n" ++ (more.pretty shown ++ str "}") else more.plain shown (str ", ") ++ str " }" := by
  cases alternate with
  | false =>
    refine ⟨s.flatMap (escapeDebug shown) ++ '"' :: (more.plain shown (str ", ") ++ str " }"), _, ?_, literal_text shown _ _, rfl⟩
    simp only [DebugNode.shownAs, DebugNode.plain, DebugNodeFields.plain, debugStr, Bool.false_eq_true, if_false, List.append_assoc]
    rfl
  | true =>
    refine ⟨s.flatMap (escapeDebug shown) ++ '"' :: (str ",\n" ++ (more.pretty shown ++ str "}")), _, ?_, literal_text shown _ _, rfl⟩
    have hl : '\n' ∉ field ++ str ": " ++ debugStr shown s := by
      have h1 := text_line shown s
      have h2 : '\n' ∉ str ": " := by decide +kernel
      simp [debugStr, hn, h1, h2]
    have hne : field ++ str ": " ++ debugStr shown s ≠ [] := by simp [debugStr]
    have e : padLines false (str ",\n") = str ",\n" := by decide +kernel
    have key := pad_start (field ++ str ": " ++ debugStr shown s) (str ",\n") hl hne
    simp only [DebugNode.shownAs, DebugNode.pretty, DebugNodeFields.pretty, if_true]
    rw [key, e]
    simp only [debugStr, List.append_assoc]
    rfl

/-- The same text: the same fields. -/
theorem tells (alternate : Bool) (name field : Str) (hn : '\n' ∉ field) (s t : Str) (m n : DebugNodeFields)
    (h : (DebugNode.struct name (.cons field (.text s) m)).shownAs shown alternate =
      (DebugNode.struct name (.cons field (.text t) n)).shownAs shown alternate) :
    s = t ∧ (if alternate then str ",\n" ++ (m.pretty shown ++ str "}") else m.plain shown (str ", ") ++ str " }") =
      (if alternate then str ",\n" ++ (n.pretty shown ++ str "}") else n.plain shown (str ", ") ++ str " }") := by
  obtain ⟨r, rest, h1, h2, h3⟩ := shows shown alternate name field hn s m
  obtain ⟨r', rest', h1', h2', h3'⟩ := shows shown alternate name field hn t n
  rw [h1, h1'] at h
  rw [List.append_cancel_left h, h2'] at h2
  obtain ⟨e1, e2⟩ := Prod.mk.inj (Option.some.inj h2)
  exact ⟨e1.symm, by rw [← h3, ← h3', e2]⟩

theorem words_string (alternate : Bool) (l : List (Nat × Style)) :
    let m : DebugNodeFields := .cons (str "styles") (.list (debugStarts l)) .nil
    wordsFrom [] (if alternate then str ",\n" ++ (m.pretty shown ++ str "}") else m.plain shown (str ", ") ++ str " }") =
      str "styles" :: listWords l := by
  cases alternate with
  | false =>
    simp only [DebugNodeFields.plain, DebugNode.plain, Bool.false_eq_true, if_false, List.append_assoc, List.nil_append]
    rw [words_gaps _ _ (by decide +kernel), words_leaf _ _ (isWord_lit _) (by show isWord ':' = false; decide),
      words_gaps _ _ (by decide +kernel), words_gaps _ _ (by decide +kernel), plain_items shown l [] (by simp)]
    have e : wordsFrom [] (str "]" ++ str " }") = [] := by decide +kernel
    rw [e, List.append_nil]
  | true =>
    simp only [DebugNodeFields.pretty, if_true, List.append_assoc, List.nil_append]
    rw [words_gaps _ _ (by decide +kernel), words_pad _ _ _ _ (fun _ => rfl)]
    simp only [List.append_assoc]
    rw [words_leaf _ _ (isWord_lit _) (by show isWord ':' = false; decide), words_gaps _ _ (by decide +kernel)]
    have e : wordsFrom [] (str ",\n" ++ str "}") = [] := by decide +kernel
    cases l with
    | nil =>
      have e2 : wordsFrom [] (str "[]" ++ (str ",\n" ++ str "}")) = [] := by decide +kernel
      simp only [debugStarts, DebugNode.pretty, e2, listWords]
    | cons p l =>
      have e3 : (DebugNode.list (debugStarts (p :: l))).pretty shown =
        str "[\n" ++ (debugStarts (p :: l)).pretty shown ++ str "]" := rfl
      rw [e3]
      simp only [List.append_assoc]
      rw [words_gaps _ _ (by decide +kernel), pretty_items, words_gaps _ _ (by decide +kernel), e, List.append_nil]

theorem words_writer (alternate : Bool) (st : Style) :
    let m : DebugNodeFields := .cons (str "current") (.val st.debug) .nil
    wordsFrom [] (if alternate then str ",\n" ++ (m.pretty shown ++ str "}") else m.plain shown (str ", ") ++ str " }") =
      str "current" :: styleWords st := by
  cases alternate with
  | false =>
    simp only [DebugNodeFields.plain, DebugNode.plain, Bool.false_eq_true, if_false, List.append_assoc, List.nil_append]
    rw [words_gaps _ _ (by decide +kernel), words_leaf _ _ (isWord_lit _) (by show isWord ':' = false; decide),
      words_gaps _ _ (by decide +kernel), plain_words _ (named_style st) _ (by show isWord ' ' = false; decide), valWords_style]
    have e : wordsFrom [] (str " }") = [] := by decide +kernel
    rw [e, List.append_nil]
  | true =>
    simp only [DebugNodeFields.pretty, if_true, List.append_assoc, List.nil_append]
    rw [words_gaps _ _ (by decide +kernel), words_pad _ _ _ _ (fun _ => rfl)]
    simp only [List.append_assoc, DebugNode.pretty]
    rw [words_leaf _ _ (isWord_lit _) (by show isWord ':' = false; decide), words_gaps _ _ (by decide +kernel),
      pretty_words _ (named_style st) _ (by show isWord ',' = false; decide), valWords_style]
    have e : wordsFrom [] (str ",\n" ++ str "}") = [] := by decide +kernel
    rw [e, List.append_nil]

theorem style_words_inj {s t : Style} (h : styleWords s = styleWords t) : s = t := by
  rw [← valWords_style, ← valWords_style] at h
  exact (style_inj (r := []) (r' := []) (by rw [h])).1

theorem strLen_bytes (s : Str) : strLen s = (utf8 s).length := by
  induction s with
  | nil => rfl
  | cons c s ih =>
    have e : utf8 (c :: s) = String.utf8EncodeChar c ++ utf8 s := by simp [utf8]
    rw [e, List.length_append, String.length_utf8EncodeChar, ← ih]
    simp

theorem words_offsets (l : List Chunk) (n : Nat) : listWords (StyString.offsets n l) = startWords n l := by
  induction l generalizing n with
  | nil => rfl
  | cons x l ih =>
    obtain ⟨s, st⟩ := x
    simp only [StyString.offsets, listWords, startWords, ih, strLen_bytes]

/-! ### Merged writes -/

theorem flatten_merge (l : List Chunk) : flatten (mergeWrites l) = flatten l := by
  induction l with
  | nil => rfl
  | cons x l ih =>
    obtain ⟨s, st⟩ := x
    have e : flatten ((s, st) :: l) = paint s st ++ flatten l := rfl
    rw [e, ← ih, mergeWrites]
    rcases mergeWrites l with _ | ⟨⟨u, st'⟩, more⟩
    · rfl
    · simp only
      split
      · rename_i h
        subst h
        simp [flatten, paint]
      · rfl

theorem merge_cons (c : Char) (s : Str) (hs : s ≠ []) (st : Style) (l : List Chunk) :
    mergeWrites ((c :: s, st) :: l) = mergeWrites (([c], st) :: (s, st) :: l) := by
  simp only [mergeWrites]
  rcases mergeWrites l with _ | ⟨⟨u, st'⟩, more⟩
  · simp
  · simp only
    split <;> simp

theorem merge_single (l : List Chunk) (h : ∀ x ∈ l, x.1 ≠ []) :
    mergeWrites l = mergeWrites ((flatten l).map fun x => ([x.1], x.2)) := by
  have step : ∀ (x : Chunk) (a b : List Chunk), mergeWrites a = mergeWrites b → mergeWrites (x :: a) = mergeWrites (x :: b) := by
    intro x a b h
    simp only [mergeWrites, h]
  induction l with
  | nil => rfl
  | cons x l ih =>
    obtain ⟨s, st⟩ := x
    have ih := ih fun x hx => h x (by simp [hx])
    have e : flatten ((s, st) :: l) = paint s st ++ flatten l := rfl
    rw [e, List.map_append]
    have hs : s ≠ [] := h (s, st) (by simp)
    clear h e
    induction s with
    | nil => exact absurd rfl hs
    | cons c s ih2 =>
      cases s with
      | nil => exact step _ _ _ ih
      | cons d s =>
        rw [merge_cons c (d :: s) (by simp)]
        exact step _ _ _ (ih2 (by simp))

end DebugMore

open DebugMore

/-- C117: what `{:?}` and `{:#?}` show of an attributed string is, whatever was written to it: a string literal that Rust reads as
its text, and for each change of style the byte where it takes place, and the style. -/
theorem C117_string (shown : Char → Bool) (alternate : Bool) (history : List Chunk) :
    ∃ s : StyString, writeChunks history StyString.new = (.ok (), s) ∧ ∃ r rest,
      s.debug.shownAs shown alternate =
        (if alternate then str "String {\n    string: \"" else str "String { string: \"") ++ r ∧
      literal .chars r = some (history.flatMap Prod.fst, rest) ∧
      wordsFrom [] rest = str "styles" :: startWords 0 (mergeWrites history) := by
  have e := string_of_history history
  obtain ⟨r, rest, h1, h2, h3⟩ := shows shown alternate (str "String") (str "string") (by decide +kernel)
    (StyString.ofSegs (mergeWrites history)).string
    (.cons (str "styles") (.list (debugStarts (StyString.ofSegs (mergeWrites history)).styles)) .nil)
  refine ⟨_, e, r, rest, ?_, ?_, ?_⟩
  · refine Eq.trans h1 ?_
    have : str "String" ++ (if alternate then str " {\n    " else str " { ") ++ str "string" ++ str ": " ++ ['"'] =
        (if alternate then str "String {\n    string: \"" else str "String { string: \"") := by
      cases alternate <;> decide +kernel
    rw [this]
  · have key : ∀ c : List Chunk, c.flatMap Prod.fst = (flatten c).map Prod.fst := by
      intro c
      induction c with
      | nil => rfl
      | cons x c ih =>
        have e : flatten (x :: c) = paint x.1 x.2 ++ flatten c := rfl
        rw [e, List.map_append, ← ih, List.flatMap_cons, paint, List.map_map]
        congr 1
        exact (List.map_id x.1).symm
    rw [h2]
    show some ((mergeWrites history).flatMap Prod.fst, rest) = _
    rw [key, key, flatten_merge]
  · rw [h3, words_string, ← words_offsets]
    rfl

/-- C117: so two attributed strings are shown the same if and only if they were written in the same styles and with the same texts
in between, however these were split into writes. -/
theorem C117_string_tells (shown : Char → Bool) (alternate : Bool) (history history' : List Chunk) (s s' : StyString)
    (h : writeChunks history StyString.new = (.ok (), s)) (h' : writeChunks history' StyString.new = (.ok (), s')) :
    s.debug.shownAs shown alternate = s'.debug.shownAs shown alternate ↔ mergeWrites history = mergeWrites history' := by
  obtain rfl := (Prod.mk.inj (h.symm.trans (string_of_history history))).2
  obtain rfl := (Prod.mk.inj (h'.symm.trans (string_of_history history'))).2
  constructor
  · intro e
    obtain ⟨h1, h2⟩ := tells shown alternate (str "String") (str "string") (by decide +kernel) _ _ _ _ e
    have h3 := congrArg (wordsFrom []) h2
    rw [words_string, words_string] at h3
    have h4 := listWords_inj _ _ (List.cons.inj h3).2
    have h5 : StyString.ofSegs (mergeWrites history) = StyString.ofSegs (mergeWrites history') := by
      cases e1 : StyString.ofSegs (mergeWrites history)
      cases e2 : StyString.ofSegs (mergeWrites history')
      simp_all
    have h6 := StyString.display_ofSegs (mergeWrites history) Style.default FormatterArgs.default
    rw [h5, StyString.display_ofSegs] at h6
    exact (Prod.mk.inj h6).1.symm
  · intro e; rw [e]

/-- C117: strings that are shown the same are the same text in the same styles, and, if no write was empty, the other way round. -/
theorem C117_string_looks (shown : Char → Bool) (alternate : Bool) (history history' : List Chunk) (s s' : StyString)
    (h : writeChunks history StyString.new = (.ok (), s)) (h' : writeChunks history' StyString.new = (.ok (), s')) :
    (s.debug.shownAs shown alternate = s'.debug.shownAs shown alternate → flatten history = flatten history') ∧
    ((∀ x ∈ history ++ history', x.1 ≠ []) → flatten history = flatten history' →
      s.debug.shownAs shown alternate = s'.debug.shownAs shown alternate) := by
  have key := C117_string_tells shown alternate history history' s s' h h'
  refine ⟨fun e => ?_, fun hx e => key.2 ?_⟩
  · rw [← flatten_merge history, key.1 e, flatten_merge]
  · rw [merge_single history fun x m => hx x (by simp [m]), e, ← merge_single history' fun x m => hx x (by simp [m])]

/-- C117: of a writer on a `String`: what it has received, as a literal, and the style it writes in. -/
theorem C117_ansi (shown : Char → Bool) (alternate : Bool) (a : Ansi StdString) :
    ∃ r rest, a.debug.shownAs shown alternate =
        (if alternate then str "Ansi {\n    inner: \"" else str "Ansi { inner: \"") ++ r ∧
      literal .chars r = some (a.inner.chars, rest) ∧ wordsFrom [] rest = str "current" :: styleWords a.current := by
  obtain ⟨r, rest, h1, h2, h3⟩ := shows shown alternate (str "Ansi") (str "inner") (by decide +kernel) a.inner.chars
    (.cons (str "current") (.val a.current.debug) .nil)
  refine ⟨r, rest, ?_, h2, by rw [h3, words_writer]⟩
  refine Eq.trans h1 ?_
  have : str "Ansi" ++ (if alternate then str " {\n    " else str " { ") ++ str "inner" ++ str ": " ++ ['"'] =
      (if alternate then str "Ansi {\n    inner: \"" else str "Ansi { inner: \"") := by
    cases alternate <;> decide +kernel
  rw [this]

theorem C117_html (shown : Char → Bool) (alternate : Bool) (a : Html StdString) :
    ∃ r rest, a.debug.shownAs shown alternate =
        (if alternate then str "Html {\n    inner: \"" else str "Html { inner: \"") ++ r ∧
      literal .chars r = some (a.inner.chars, rest) ∧ wordsFrom [] rest = str "current" :: styleWords a.current := by
  obtain ⟨r, rest, h1, h2, h3⟩ := shows shown alternate (str "Html") (str "inner") (by decide +kernel) a.inner.chars
    (.cons (str "current") (.val a.current.debug) .nil)
  refine ⟨r, rest, ?_, h2, by rw [h3, words_writer]⟩
  refine Eq.trans h1 ?_
  have : str "Html" ++ (if alternate then str " {\n    " else str " { ") ++ str "inner" ++ str ": " ++ ['"'] =
      (if alternate then str "Html {\n    inner: \"" else str "Html { inner: \"") := by
    cases alternate <;> decide +kernel
  rw [this]

theorem C117_plain (shown : Char → Bool) (alternate : Bool) (a : Plain StdString) :
    ∃ r rest, a.debug.shownAs shown alternate =
        (if alternate then str "Plain {\n    inner: \"" else str "Plain { inner: \"") ++ r ∧
      literal .chars r = some (a.inner.chars, rest) ∧ wordsFrom [] rest = [] := by
  obtain ⟨r, rest, h1, h2, h3⟩ := shows shown alternate (str "Plain") (str "inner") (by decide +kernel) a.inner.chars .nil
  refine ⟨r, rest, ?_, h2, ?_⟩
  · refine Eq.trans h1 ?_
    have : str "Plain" ++ (if alternate then str " {\n    " else str " { ") ++ str "inner" ++ str ": " ++ ['"'] =
        (if alternate then str "Plain {\n    inner: \"" else str "Plain { inner: \"") := by
      cases alternate <;> decide +kernel
    rw [this]
  · rw [h3]
    simp only [DebugNodeFields.plain, DebugNodeFields.pretty]
    cases alternate <;> decide +kernel

/-- C117: writers that are shown the same behave the same from then on. -/
theorem C117_writers_tell (shown : Char → Bool) (alternate : Bool) :
    (∀ a b : Ansi StdString, a.debug.shownAs shown alternate = b.debug.shownAs shown alternate ↔ a = b) ∧
    (∀ a b : Html StdString, a.debug.shownAs shown alternate = b.debug.shownAs shown alternate ↔ a = b) ∧
    (∀ a b : Plain StdString, a.debug.shownAs shown alternate = b.debug.shownAs shown alternate ↔ a = b) := by
  refine ⟨fun a b => ⟨fun e => ?_, fun e => by rw [e]⟩, fun a b => ⟨fun e => ?_, fun e => by rw [e]⟩,
    fun a b => ⟨fun e => ?_, fun e => by rw [e]⟩⟩
  · obtain ⟨⟨x⟩, st⟩ := a
    obtain ⟨⟨y⟩, st'⟩ := b
    obtain ⟨h1, h2⟩ := tells shown alternate (str "Ansi") (str "inner") (by decide +kernel) _ _ _ _ e
    have h3 := congrArg (wordsFrom []) h2
    rw [words_writer, words_writer] at h3
    have h4 := style_words_inj (List.cons.inj h3).2
    simp_all
  · obtain ⟨⟨x⟩, st⟩ := a
    obtain ⟨⟨y⟩, st'⟩ := b
    obtain ⟨h1, h2⟩ := tells shown alternate (str "Html") (str "inner") (by decide +kernel) _ _ _ _ e
    have h3 := congrArg (wordsFrom []) h2
    rw [words_writer, words_writer] at h3
    have h4 := style_words_inj (List.cons.inj h3).2
    simp_all
  · obtain ⟨⟨x⟩⟩ := a
    obtain ⟨⟨y⟩⟩ := b
    obtain ⟨h1, -⟩ := tells shown alternate (str "Plain") (str "inner") (by decide +kernel) _ _ _ _ e
    have h1 : x = y := h1
    rw [h1]

theorem DebugMore.items_line (shown : Char → Bool) (l : List (Nat × Style)) (before : Str) (hb : '\n' ∉ before) :
    '\n' ∉ (debugStarts l).plain shown before := by
  induction l generalizing before with
  | nil => simp [debugStarts, DebugNodes.plain]
  | cons p l ih =>
    have h1 := plain_line p.2.debug (named_style p.2)
    have h2 := plain_line (.nat p.1) trivial
    have h3 : ∀ x ∈ ['(', ')', ',', ' '], x ≠ '\n' := by decide
    have h4 := ih (str ", ") (by decide +kernel)
    have e1 : str "(" = ['('] := by decide +kernel
    have e2 : str ")" = [')'] := by decide +kernel
    have e3 : str ", " = [',', ' '] := by decide +kernel
    simp only [debugStarts, DebugNodes.plain, debugStart, DebugNode.plain, List.mem_append, not_or, e1, e2, e3] at h4 ⊢
    exact ⟨⟨hb, ⟨by simp, ⟨⟨by simp, h2⟩, ⟨⟨by simp, h1⟩, by simp⟩⟩⟩, by simp⟩, h4⟩

/-- C117: with `{:?}` an attributed string or a writer is shown in one line, whatever the text. -/
theorem C117_one_line (shown : Char → Bool) :
    (∀ s : StyString, '\n' ∉ s.debug.shownAs shown false) ∧ (∀ a : Ansi StdString, '\n' ∉ a.debug.shownAs shown false) ∧
    (∀ a : Html StdString, '\n' ∉ a.debug.shownAs shown false) ∧ (∀ a : Plain StdString, '\n' ∉ a.debug.shownAs shown false) := by
  have lit : ∀ s : Str, '\n' ∉ debugStr shown s := fun s => by simp [debugStr, text_line shown s]
  refine ⟨fun s => ?_, fun a => ?_, fun a => ?_, fun a => ?_⟩
  · simp only [StyString.debug, DebugNode.shownAs, DebugNode.plain, DebugNodeFields.plain, Bool.false_eq_true, if_false,
      List.mem_append, not_or]
    have := DebugMore.items_line shown s.styles [] (by simp)
    have := lit s.string
    simp_all (decide := true) [str]
  · simp only [Ansi.debug, DebugNode.shownAs, DebugNode.plain, DebugNodeFields.plain, Bool.false_eq_true, if_false,
      List.mem_append, not_or]
    have := plain_line a.current.debug (named_style _)
    have := lit a.inner.chars
    simp_all (decide := true) [str]
  · simp only [Html.debug, DebugNode.shownAs, DebugNode.plain, DebugNodeFields.plain, Bool.false_eq_true, if_false,
      List.mem_append, not_or]
    have := plain_line a.current.debug (named_style _)
    have := lit a.inner.chars
    simp_all (decide := true) [str]
  · simp only [Plain.debug, DebugNode.shownAs, DebugNode.plain, DebugNodeFields.plain, Bool.false_eq_true, if_false,
      List.mem_append, not_or]
    have := lit a.inner.chars
    simp_all (decide := true) [str]

/-! ### Samples -/

/-- A string whose text has to be escaped. -/
def debugHistory : List Chunk :=
  [(['a', '"', '\n'], ⟨.Red, .Default, .Normal⟩), (['é'], ⟨.Red, .Default, .Normal⟩), (['\x1b'], Style.default)]

example : (writeChunks debugHistory StyString.new).2.debug.shownAs (fun c => decide (32 ≤ c.toNat)) false =
    str "String { string: \"a\\\"\\né\\u{1b}\", styles: [(0, Style { foreground: Red, background: Default, intensity: Normal }), (5, Style { foreground: Default, background: Default, intensity: Normal })] }" := by
  decide +kernel

example : (writeChunks [(['a'], ⟨.Red, .Default, .Bold⟩)] StyString.new).2.debug.shownAs (fun _ => true) true =
    str "String {\n    string: \"a\",\n    styles: [\n        (\n            0,\n            Style {\n                foreground: Red,\n                background: Default,\n                intensity: Bold,\n            },\n        ),\n    ],\n}" := by
  decide +kernel

example : StyString.new.debug.shownAs (fun _ => true) true = str "String {\n    string: \"\",\n    styles: [],\n}" ∧
    (Plain.new StdString.new).debug.shownAs (fun _ => true) false = str "Plain { inner: \"\" }" ∧
    ((writeChunks [(['<'], ⟨.Red, .Default, .Normal⟩)] (Html.new StdString.new)).2.debug.shownAs (fun _ => true) false) =
      str "Html { inner: \"<span style=color:red>&lt;\", current: Style { foreground: Red, background: Default, intensity: Normal } }" := by
  decide +kernel

/-- C117: an empty write in another style is shown, although nothing of it is seen when the string is displayed. -/
theorem C117_empty_write :
    let h : List Chunk := [(['a'], Style.default), ([], ⟨.Red, .Default, .Normal⟩)]
    flatten h = flatten [(['a'], Style.default)] ∧
      ∀ shown alternate, (writeChunks h StyString.new).2.debug.shownAs shown alternate ≠
        (writeChunks [(['a'], Style.default)] StyString.new).2.debug.shownAs shown alternate := by
  refine ⟨rfl, fun shown alternate e => ?_⟩
  have := (C117_string_tells shown alternate [(['a'], Style.default), ([], ⟨.Red, .Default, .Normal⟩)] [(['a'], Style.default)]
    _ _ rfl rfl).1 e
  exact absurd this (by decide +kernel)

end Stylish.Props
