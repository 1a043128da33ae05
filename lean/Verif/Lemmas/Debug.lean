import Verif.Model.Debug
import Verif.Spec.Debug
/-
For C79: the words in the `Debug` text of a formatter.
-/

namespace Stylish.DebugText

open Spec.Debug

theorem words_gap (acc : Str) (c : Char) (cs : Str) (h : isWord c = false) :
    wordsFrom acc (c :: cs) = flush acc ++ wordsFrom [] cs := by
  simp [wordsFrom, h]

/-- Does the text not go on with a word? -/
def Stops : Str → Prop
  | [] => True
  | c :: _ => isWord c = false

theorem words_stop (acc : Str) (s : Str) (h : Stops s) : wordsFrom acc s = flush acc ++ wordsFrom [] s := by
  cases s with
  | nil => simp [wordsFrom, flush]
  | cons c cs => rw [words_gap _ _ _ h, words_gap [] _ _ h]; rfl

theorem words_word (acc w s : Str) (hw : ∀ c ∈ w, isWord c = true) :
    wordsFrom acc (w ++ s) = wordsFrom (acc ++ w) s := by
  induction w generalizing acc with
  | nil => simp
  | cons c w ih =>
    have hc := hw c (by simp)
    rw [List.cons_append]
    show (if isWord c then wordsFrom (acc ++ [c]) (w ++ s) else _) = _
    rw [if_pos hc, ih _ (fun c hc => hw c (by simp [hc]))]
    simp

/-- A name or number. -/
def IsWord (w : Str) : Prop := w ≠ [] ∧ ∀ c ∈ w, isWord c = true

theorem words_leaf (w s : Str) (hw : IsWord w) (hs : Stops s) : wordsFrom [] (w ++ s) = w :: wordsFrom [] s := by
  rw [words_word [] w s hw.2, List.nil_append, words_stop _ _ hs, flush, if_neg hw.1]
  rfl

theorem words_gaps (g s : Str) (hg : ∀ c ∈ g, isWord c = false) : wordsFrom [] (g ++ s) = wordsFrom [] s := by
  induction g with
  | nil => rfl
  | cons c g ih =>
    rw [List.cons_append, words_gap _ _ _ (hg c (by simp)), ih (fun c hc => hg c (by simp [hc]))]
    rfl

theorem words_pad (acc : Str) (start : Bool) (s r : Str) (h : start = true → acc = []) :
    wordsFrom acc (padLines start s ++ r) = wordsFrom acc (s ++ r) := by
  induction s generalizing acc start with
  | nil => rfl
  | cons c cs ih =>
    have key : wordsFrom acc (c :: (padLines (c = '\n') cs ++ r)) = wordsFrom acc (c :: (cs ++ r)) := by
      simp only [wordsFrom]
      by_cases hc : isWord c = true
      · rw [if_pos hc, if_pos hc]
        have hn : c ≠ '\n' := by rintro rfl; revert hc; decide
        exact ih _ _ (by simp [hn])
      · rw [if_neg hc, if_neg hc, ih _ _ (fun _ => rfl)]
    cases start with
    | false => simpa [padLines] using key
    | true =>
      obtain rfl := h rfl
      simp only [padLines, if_true, List.append_assoc, List.cons_append]
      rw [words_gaps _ _ (by decide +kernel)]
      exact key

mutual
/-- The words that should be there. -/
def valWords : DebugVal → List Str
  | .unit name => [name]
  | .tuple name field => name :: valWords field
  | .struct name fields => name :: fieldWords fields
  | .nat n => [Nat.toDigits 10 n]
  | .bool b => [if b then str "true" else str "false"]
def fieldWords : DebugFields → List Str
  | .nil => []
  | .cons name value rest => name :: (valWords value ++ fieldWords rest)
end

mutual
/-- All names are names. -/
def Named : DebugVal → Prop
  | .unit name => IsWord name
  | .tuple name field => IsWord name ∧ Named field
  | .struct name fields => IsWord name ∧ NamedFields fields
  | .nat _ => True
  | .bool _ => True
def NamedFields : DebugFields → Prop
  | .nil => True
  | .cons name value rest => IsWord name ∧ Named value ∧ NamedFields rest
end

theorem digits_word (n : Nat) : IsWord (Nat.toDigits 10 n) := by
  refine ⟨Nat.toDigits_ne_nil, fun c hc => ?_⟩
  have := Nat.isDigit_of_mem_toDigits (by decide) (by decide) hc
  simp [isWord, Char.isAlphanum, this]

theorem bool_word (b : Bool) : IsWord (if b then str "true" else str "false") := by
  cases b <;> (unfold IsWord; decide +kernel)

mutual
theorem plain_words (v : DebugVal) (h : Named v) (s : Str) (hs : Stops s) :
    wordsFrom [] (v.plain ++ s) = valWords v ++ wordsFrom [] s := by
  match v with
  | .unit name => simpa [DebugVal.plain, valWords] using words_leaf name s h hs
  | .tuple name field =>
    simp only [DebugVal.plain, List.append_assoc, valWords]
    rw [words_leaf _ _ h.1 (by show isWord '(' = false; decide), words_gaps _ _ (by decide +kernel),
      plain_words field h.2 _ (by show isWord ')' = false; decide), words_gaps _ _ (by decide +kernel)]
    rfl
  | .struct name .nil => simpa [DebugVal.plain, valWords, fieldWords] using words_leaf name s h.1 hs
  | .struct name (.cons f v rest) =>
    simp only [DebugVal.plain, List.append_assoc, valWords]
    rw [words_leaf _ _ h.1 (by show isWord ' ' = false; decide),
      plain_fields (.cons f v rest) h.2 _ (by decide +kernel) _ (by show isWord ' ' = false; decide),
      words_gaps _ _ (by decide +kernel)]
    rfl
  | .nat n => simpa [DebugVal.plain, valWords] using words_leaf _ s (digits_word n) hs
  | .bool b => simpa [DebugVal.plain, valWords] using words_leaf _ s (bool_word b) hs
theorem plain_fields (fs : DebugFields) (h : NamedFields fs) (before : Str) (hb : ∀ c ∈ before, isWord c = false)
    (s : Str) (hs : Stops s) :
    wordsFrom [] (fs.plain before ++ s) = fieldWords fs ++ wordsFrom [] s := by
  match fs with
  | .nil => rfl
  | .cons name value rest =>
    simp only [DebugFields.plain, List.append_assoc, fieldWords]
    have hr : Stops (rest.plain (str ", ") ++ s) := by
      cases rest with
      | nil => exact hs
      | cons => show isWord ',' = false; decide
    rw [words_gaps _ _ hb, words_leaf _ _ h.1 (by show isWord ':' = false; decide), words_gaps _ _ (by decide +kernel),
      plain_words value h.2.1 _ hr, plain_fields rest h.2.2 _ (by decide +kernel) s hs]
    simp
end

mutual
theorem pretty_words (v : DebugVal) (h : Named v) (s : Str) (hs : Stops s) :
    wordsFrom [] (v.pretty ++ s) = valWords v ++ wordsFrom [] s := by
  match v with
  | .unit name => simpa [DebugVal.pretty, valWords] using words_leaf name s h hs
  | .tuple name field =>
    simp only [DebugVal.pretty, List.append_assoc, valWords]
    rw [words_leaf _ _ h.1 (by show isWord '(' = false; decide), words_gaps _ _ (by decide +kernel),
      words_pad _ _ _ _ (fun _ => rfl), List.append_assoc,
      pretty_words field h.2 _ (by show isWord ',' = false; decide), words_gaps _ _ (by decide +kernel),
      words_gaps _ _ (by decide +kernel)]
    rfl
  | .struct name .nil => simpa [DebugVal.pretty, valWords, fieldWords] using words_leaf name s h.1 hs
  | .struct name (.cons f v rest) =>
    simp only [DebugVal.pretty, List.append_assoc, valWords]
    rw [words_leaf _ _ h.1 (by show isWord ' ' = false; decide), words_gaps _ _ (by decide +kernel),
      pretty_fields (.cons f v rest) h.2, words_gaps _ _ (by decide +kernel)]
    rfl
  | .nat n => simpa [DebugVal.pretty, valWords] using words_leaf _ s (digits_word n) hs
  | .bool b => simpa [DebugVal.pretty, valWords] using words_leaf _ s (bool_word b) hs
theorem pretty_fields (fs : DebugFields) (h : NamedFields fs) (s : Str) :
    wordsFrom [] (fs.pretty ++ s) = fieldWords fs ++ wordsFrom [] s := by
  match fs with
  | .nil => rfl
  | .cons name value rest =>
    simp only [DebugFields.pretty, List.append_assoc, fieldWords]
    rw [words_pad _ _ _ _ (fun _ => rfl)]
    simp only [List.append_assoc]
    rw [words_leaf _ _ h.1 (by show isWord ':' = false; decide), words_gaps _ _ (by decide +kernel),
      pretty_words value h.2.1 _ (by show isWord ',' = false; decide), words_gaps _ _ (by decide +kernel),
      pretty_fields rest h.2.2 s]
    simp
end

/-! ### The words tell the values -/

theorem named_unit (s : Str) (h : (s ≠ [] ∧ ∀ c ∈ s, isWord c = true)) : Named (.unit s) := h

theorem named_color (c : Color) : Named c.debug := by
  cases c <;> (refine named_unit _ ?_; decide +kernel)
theorem named_intensity (c : Intensity) : Named c.debug := by
  cases c <;> (refine named_unit _ ?_; decide +kernel)
theorem named_align (c : Align) : Named c.debug := by
  cases c <;> (refine named_unit _ ?_; decide +kernel)
theorem named_sign (c : Sign) : Named c.debug := by
  cases c <;> (refine named_unit _ ?_; decide +kernel)
theorem named_debugHex (c : DebugHex) : Named c.debug := by
  cases c <;> (refine named_unit _ ?_; decide +kernel)

theorem named_opt {A : Type} (f : A → DebugVal) (h : ∀ a, Named (f a)) (o : Option A) : Named (optDebug f o) := by
  cases o with
  | none => refine named_unit _ ?_; decide +kernel
  | some a => exact ⟨by unfold IsWord; decide +kernel, h a⟩

theorem isWord_lit (s : Str) (h : (s ≠ [] ∧ ∀ c ∈ s, isWord c = true) := by decide +kernel) : IsWord s := h

theorem named_style (s : Style) : Named s.debug :=
  ⟨isWord_lit _, isWord_lit _, named_color _, isWord_lit _, named_color _, isWord_lit _, named_intensity _, trivial⟩

theorem named_args (a : FormatterArgs) : Named a.debug :=
  ⟨isWord_lit _, isWord_lit _, named_opt _ named_align _, isWord_lit _, named_opt _ named_sign _, isWord_lit _, trivial,
    isWord_lit _, trivial, isWord_lit _, named_opt DebugVal.nat (fun _ => trivial) _, isWord_lit _, named_opt DebugVal.nat (fun _ => trivial) _,
    isWord_lit _, named_opt _ named_debugHex _, trivial⟩

theorem named_formatter {W : Type} (f : Formatter W) : Named f.debug :=
  ⟨isWord_lit _, isWord_lit _, named_style _, isWord_lit _, named_args _, trivial⟩

theorem text_words {W : Type} (f : Formatter W) (alternate : Bool) :
    wordsFrom [] (f.debugText alternate) = valWords f.debug := by
  have h1 := plain_words f.debug (named_formatter f) [] trivial
  have h2 := pretty_words f.debug (named_formatter f) [] trivial
  simp only [List.append_nil] at h1 h2
  cases alternate
  · exact h1.trans (List.append_nil _)
  · exact h2.trans (List.append_nil _)

theorem words_text {W : Type} (f : Formatter W) (alternate : Bool) :
    wordsFrom [] (f.debugText alternate) = described f.style f.format := by
  rw [text_words]
  obtain ⟨⟨fg, bg, int⟩, ⟨align, sign, alt, zero, width, precision, hex⟩, w⟩ := f
  have hc : ∀ c : Color, valWords c.debug = [colorName c] := by intro c; cases c <;> rfl
  have hi : ∀ c : Intensity, valWords c.debug = [intensityName c] := by intro c; cases c <;> rfl
  have ho : ∀ {A : Type} (f : A → DebugVal) (name : A → Str), (∀ a, valWords (f a) = [name a]) → ∀ o : Option A,
      valWords (optDebug f o) = optionWords name o := by
    intro A f name h o
    cases o with
    | none => simp only [optDebug, valWords, optionWords]
    | some a => simp only [optDebug, valWords, optionWords, h]
  simp only [Formatter.debug, Style.debug, FormatterArgs.debug, valWords, fieldWords, hc, hi,
    ho Align.debug alignName (by intro a; cases a <;> rfl), ho Sign.debug signName (by intro a; cases a <;> rfl),
    ho DebugVal.nat (Nat.toDigits 10) (by intro a; simp only [valWords]),
    ho DebugHex.debug hexName (by intro a; cases a <;> rfl), described, boolName, List.append_assoc, List.cons_append,
    List.nil_append, List.append_nil]

/-- Values that are shown as one word, of their own. -/
def OneWord {A : Type} (f : A → DebugVal) : Prop :=
  ∃ w : A → Str, (∀ a, valWords (f a) = [w a]) ∧ ∀ a b, w a = w b → a = b

/-- From the words of the first field on. -/
theorem one_inj {A : Type} {f : A → DebugVal} (h : OneWord f) {a b : A} {r r' : List Str}
    (e : valWords (f a) ++ r = valWords (f b) ++ r') : a = b ∧ r = r' := by
  obtain ⟨w, hw, hi⟩ := h
  rw [hw, hw] at e
  obtain ⟨e1, e2⟩ := List.cons.inj e
  exact ⟨hi _ _ e1, e2⟩

theorem opt_inj {A : Type} {f : A → DebugVal} (h : OneWord f) {a b : Option A} {r r' : List Str}
    (e : valWords (optDebug f a) ++ r = valWords (optDebug f b) ++ r') : a = b ∧ r = r' := by
  have hne : str "None" ≠ str "Some" := by decide +kernel
  cases a with
  | none =>
    cases b with
    | none => exact ⟨rfl, (List.cons.inj e).2⟩
    | some b => exact absurd (List.cons.inj e).1 hne
  | some a =>
    cases b with
    | none => exact absurd (List.cons.inj e).1.symm hne
    | some b =>
      obtain ⟨rfl, hr⟩ := one_inj h (List.cons.inj e).2
      exact ⟨rfl, hr⟩

theorem one_color : OneWord Color.debug :=
  ⟨fun c => match c.debug with | .unit n => n | _ => [], fun a => by cases a <;> rfl, by
    intro a b h
    cases a <;> cases b <;> first | rfl | exact absurd h (by decide +kernel)⟩
theorem one_intensity : OneWord Intensity.debug :=
  ⟨fun c => match c.debug with | .unit n => n | _ => [], fun a => by cases a <;> rfl, by
    intro a b h
    cases a <;> cases b <;> first | rfl | exact absurd h (by decide +kernel)⟩
theorem one_align : OneWord Align.debug :=
  ⟨fun c => match c.debug with | .unit n => n | _ => [], fun a => by cases a <;> rfl, by
    intro a b h
    cases a <;> cases b <;> first | rfl | exact absurd h (by decide +kernel)⟩
theorem one_sign : OneWord Sign.debug :=
  ⟨fun c => match c.debug with | .unit n => n | _ => [], fun a => by cases a <;> rfl, by
    intro a b h
    cases a <;> cases b <;> first | rfl | exact absurd h (by decide +kernel)⟩
theorem one_debugHex : OneWord DebugHex.debug :=
  ⟨fun c => match c.debug with | .unit n => n | _ => [], fun a => by cases a <;> rfl, by
    intro a b h
    cases a <;> cases b <;> first | rfl | exact absurd h (by decide +kernel)⟩
theorem one_bool : OneWord DebugVal.bool :=
  ⟨_, fun _ => rfl, by
    intro a b h
    cases a <;> cases b <;> first | rfl | exact absurd h (by decide +kernel)⟩
theorem one_nat : OneWord DebugVal.nat :=
  ⟨_, fun _ => rfl, fun a b h => by
    have := congrArg (Nat.ofDigitChars 10 · 0) h
    simpa [Nat.ofDigitChars_ten_toDigits] using this⟩

theorem style_inj {s t : Style} {r r' : List Str} (e : valWords s.debug ++ r = valWords t.debug ++ r') :
    s = t ∧ r = r' := by
  simp only [Style.debug, valWords, fieldWords, List.cons_append, List.append_assoc, List.nil_append] at e
  replace e := (List.cons.inj (List.cons.inj e).2).2
  obtain ⟨h1, e⟩ := one_inj one_color e
  obtain ⟨h2, e⟩ := one_inj one_color (List.cons.inj e).2
  obtain ⟨h3, e⟩ := one_inj one_intensity (List.cons.inj e).2
  cases s; cases t
  simp_all

theorem args_inj {s t : FormatterArgs} {r r' : List Str} (e : valWords s.debug ++ r = valWords t.debug ++ r') :
    s = t ∧ r = r' := by
  simp only [FormatterArgs.debug, valWords, fieldWords, List.cons_append, List.append_assoc, List.nil_append] at e
  replace e := (List.cons.inj (List.cons.inj e).2).2
  obtain ⟨h1, e⟩ := opt_inj one_align e
  obtain ⟨h2, e⟩ := opt_inj one_sign (List.cons.inj e).2
  obtain ⟨h3, e⟩ := one_inj one_bool (a := s.alternate) (b := t.alternate) (List.cons.inj e).2
  obtain ⟨h4, e⟩ := one_inj one_bool (a := s.zero) (b := t.zero) (List.cons.inj e).2
  obtain ⟨h5, e⟩ := opt_inj one_nat (List.cons.inj e).2
  obtain ⟨h6, e⟩ := opt_inj one_nat (List.cons.inj e).2
  obtain ⟨h7, e⟩ := opt_inj one_debugHex (List.cons.inj e).2
  cases s; cases t
  simp_all

end Stylish.DebugText
