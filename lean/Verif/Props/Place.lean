import Verif.Spec.Place
import Verif.Props.Browser
/-
C108: the HTML output in attribute values, titles and text areas.
-/

namespace Stylish.Props

open Spec Browser

variable {T : Type} [FmtWrite T] {names : Names}

/-! ## C108 -/

namespace Place

/-- The reference of an escaped character. -/
theorem reference_enc (hn : names.Standard) (c : Char) (e rest : Str) (he : htmlEntity c = some ('&' :: e)) :
    reference names (e ++ rest) = some ⟨e.length, [c], true⟩ := by
  have named : ∀ (m : Str) (c : Char), names (m ++ [';']) = some [c] → m.head? ≠ some '#' → m ≠ [] →
      reference names ((m ++ [';']) ++ rest) = some ⟨(m ++ [';']).length, [c], true⟩ := by
    intro m c hm hh hne
    have hl := longest_name hn rest [c] m [] (by simpa using hm)
    cases m with
    | nil => exact absurd rfl hne
    | cons a m =>
      have ha : a ≠ '#' := by simpa using hh
      have e0 : (a :: m ++ [';']) ++ rest = a :: m ++ ';' :: rest := by simp
      have : reference names (a :: m ++ ';' :: rest) =
          (longest names [] (a :: m ++ ';' :: rest)).map fun (n, v) =>
            ⟨n, v, ((a :: m ++ ';' :: rest).take n).getLast? = some ';'⟩ := by
        rw [List.cons_append]
        unfold reference
        split
        · rename_i e; exact absurd (List.cons.inj e).1 ha
        · rename_i e; exact absurd (List.cons.inj e).1 ha
        · rename_i e; exact absurd (List.cons.inj e).1 ha
        · rfl
      rw [e0, this, hl]
      have e2 : (a :: m ++ ';' :: rest).take (([] : Str).length + (a :: m).length + 1) = a :: m ++ [';'] := by
        rw [← e0]
        exact List.take_left' (by simp)
      have e3 : (a :: m ++ [';']).getLast? = some ';' := List.getLast?_concat ..
      simp only [Option.map_some, e2, e3]
      simp
  unfold htmlEntity at he
  by_cases h1 : c = '<'
  · subst h1
    obtain rfl : e = str "lt" ++ [';'] := by have := Option.some.inj he; exact (List.cons.inj this).2.symm
    exact named _ _ hn.lt (by decide) (by decide)
  rw [if_neg h1] at he
  by_cases h2 : c = '>'
  · subst h2
    obtain rfl : e = str "gt" ++ [';'] := by have := Option.some.inj he; exact (List.cons.inj this).2.symm
    exact named _ _ hn.gt (by decide) (by decide)
  rw [if_neg h2] at he
  by_cases h3 : c = '&'
  · subst h3
    obtain rfl : e = str "amp" ++ [';'] := by have := Option.some.inj he; exact (List.cons.inj this).2.symm
    exact named _ _ hn.amp (by decide) (by decide)
  rw [if_neg h3] at he
  by_cases h4 : c = '"'
  · subst h4
    obtain rfl : e = str "quot" ++ [';'] := by have := Option.some.inj he; exact (List.cons.inj this).2.symm
    exact named _ _ hn.quot (by decide) (by decide)
  rw [if_neg h4] at he
  by_cases h5 : c = '\''
  · subst h5
    obtain rfl : e = str "#x27;" := by have := Option.some.inj he; exact (List.cons.inj this).2.symm
    rfl
  · rw [if_neg h5] at he; cases he

theorem entity_amp (c : Char) (s : Str) (h : htmlEntity c = some s) : ∃ e, s = '&' :: e := by
  unfold htmlEntity at h
  by_cases h1 : c = '<'; · rw [if_pos h1] at h; exact ⟨_, (Option.some.inj h).symm⟩
  rw [if_neg h1] at h
  by_cases h2 : c = '>'; · rw [if_pos h2] at h; exact ⟨_, (Option.some.inj h).symm⟩
  rw [if_neg h2] at h
  by_cases h3 : c = '&'; · rw [if_pos h3] at h; exact ⟨_, (Option.some.inj h).symm⟩
  rw [if_neg h3] at h
  by_cases h4 : c = '"'; · rw [if_pos h4] at h; exact ⟨_, (Option.some.inj h).symm⟩
  rw [if_neg h4] at h
  by_cases h5 : c = '\''; · rw [if_pos h5] at h; exact ⟨_, (Option.some.inj h).symm⟩
  rw [if_neg h5] at h; cases h

theorem entity_none (c : Char) (h : htmlEntity c = none) : c ≠ '<' ∧ c ≠ '&' ∧ c ≠ '"' ∧ c ≠ '\'' := by
  refine ⟨?_, ?_, ?_, ?_⟩ <;> rintro rfl <;> exact absurd h (by decide)

theorem entity_nul (c : Char) (s : Str) (h : htmlEntity c = some s) : noNulChar c = c := by
  unfold noNulChar
  rw [if_neg]
  rintro rfl
  have : htmlEntity '\x00' = none := by decide
  rw [this] at h
  cases h

/-- What the markup is made of. -/
theorem switch_chars (a b : Style) : ∀ c ∈ htmlSwitch a b, c ≠ '&' ∧ c ≠ '"' ∧ c ≠ '\'' ∧ c ≠ '\x00' := by
  intro c hc
  rw [htmlSwitch_eq] at hc
  split at hc
  · simp at hc
  · have hclose : ∀ c ∈ htmlClose a, c ≠ '&' ∧ c ≠ '"' ∧ c ≠ '\'' ∧ c ≠ '\x00' := by
      unfold htmlClose
      split
      · decide
      · intro c hc; simp at hc
    rcases List.mem_append.1 hc with hc | hc
    · exact hclose c hc
    · split at hc
      · simp at hc
      · rename_i hb
        rcases List.mem_append.1 hc with hc | hc
        · rcases List.mem_append.1 hc with hc | hc
          · have : ∀ c ∈ str "<span style=", c ≠ '&' ∧ c ≠ '"' ∧ c ≠ '\'' ∧ c ≠ '\x00' := by decide
            exact this c hc
          · have hl := legalValue_valueOf b hb
            simp only [HtmlReader.legalValue, Bool.and_eq_true, List.all_eq_true] at hl
            have := hl.2 c hc
            refine ⟨?_, ?_, ?_, ?_⟩ <;> rintro rfl <;> exact absurd this (by decide)
        · have : ∀ c ∈ str ">", c ≠ '&' ∧ c ≠ '"' ∧ c ≠ '\'' ∧ c ≠ '\x00' := by decide
          exact this c hc

/-! ### Where markup is text -/

/-- The text read where markup is text: the markup as it is, and the characters. -/
def raw (cur : Style) : Styled → Str
  | [] => []
  | (c, st) :: t => htmlSwitch cur st ++ noNulChar c :: raw st t

/-- No character in a style. -/
def unstyled (t : Styled) : Bool := t.all fun x => x.2 = Style.default

theorem raw_length (t : Styled) : ∀ cur, t.length ≤ (raw cur t).length ∧
    ((raw cur t).length = t.length → ∀ x ∈ t, x.2 = cur) := by
  induction t with
  | nil => intro cur; exact ⟨Nat.le_refl _, fun _ _ h => absurd h (by simp)⟩
  | cons x t ih =>
    obtain ⟨c, st⟩ := x
    intro cur
    obtain ⟨h1, h2⟩ := ih st
    simp only [raw, List.length_append, List.length_cons]
    refine ⟨by omega, fun h => ?_⟩
    have h3 : htmlSwitch cur st = [] := List.eq_nil_of_length_eq_zero (by omega)
    have h4 := switch_eq_nil _ _ h3
    subst h4
    intro x hx
    rcases List.mem_cons.1 hx with rfl | hx
    · rfl
    · exact h2 (by omega) x hx

theorem raw_unstyled (t : Styled) (h : unstyled t = true) : raw Style.default t = (text t).map noNulChar := by
  induction t with
  | nil => rfl
  | cons x t ih =>
    obtain ⟨c, st⟩ := x
    simp only [unstyled, List.all_cons, Bool.and_eq_true, decide_eq_true_eq] at h
    obtain ⟨rfl, h⟩ := h
    rw [raw, htmlSwitch_self, List.nil_append, ih h]
    rfl

theorem last_unstyled (t : Styled) (h : unstyled t = true) : lastStyle Style.default t = Style.default := by
  induction t with
  | nil => rfl
  | cons x t ih =>
    obtain ⟨c, st⟩ := x
    simp only [unstyled, List.all_cons, Bool.and_eq_true, decide_eq_true_eq] at h
    obtain ⟨rfl, h⟩ := h
    exact ih h

/-- The markup that can follow. -/
def closing (t : Styled) (finished : Bool) : Str :=
  if finished then htmlSwitch (lastStyle Style.default t) Style.default else []

theorem raw_iff (t : Styled) (finished : Bool) :
    raw Style.default t ++ closing t finished = (text t).map noNulChar ↔ unstyled t = true := by
  constructor
  · intro h
    have hl := congrArg List.length h
    simp only [List.length_append, List.length_map, text] at hl
    obtain ⟨h1, h2⟩ := raw_length t Style.default
    have := h2 (by omega)
    simp only [unstyled, List.all_eq_true, decide_eq_true_eq]
    exact this
  · intro h
    rw [raw_unstyled t h, closing, last_unstyled t h, htmlSwitch_self]
    simp

theorem unstyled_lineBreaks (n : Nat) : ∀ t : Styled, t.length ≤ n → unstyled (lineBreaks t) = unstyled t := by
  have cons : ∀ x t, unstyled (x :: t) = (decide (x.2 = Style.default) && unstyled t) := fun _ _ => rfl
  induction n with
  | zero =>
    intro t ht
    obtain rfl := List.eq_nil_of_length_eq_zero (Nat.le_zero.1 ht)
    rfl
  | succ n ih =>
    intro t ht
    match t with
    | [] => rfl
    | [(c, st)] =>
      rw [lineBreaks]
      split <;> rfl
    | (c, st) :: (d, st') :: t =>
      simp only [List.length_cons] at ht
      rw [lineBreaks]
      split
      · split
        · rename_i hd
          obtain ⟨rfl, rfl⟩ := hd
          rw [cons, ih t (by omega), cons, cons]
          cases decide (st = Style.default) <;> simp
        · rw [cons, ih _ (by simp; omega), cons (c, st)]
      · rw [cons, ih _ (by simp; omega), cons (c, st)]

/-- What was written, with the line breaks of a page. -/
theorem newlines_out (k : FmtSink T) (t : T) (chs : List Chunk) (out : Str)
    (h : HtmlFinished k t chs out ∨ HtmlWrote k t chs out) : ∃ finished, newlines out =
      renderWith htmlSwitch htmlEnc Style.default (lineBreaks (flatten chs)) ++ closing (lineBreaks (flatten chs)) finished := by
  rcases h with h | h
  · exact ⟨true, by rw [htmlFinished_eq k t chs out h, newlines_htmlRender]; rfl⟩
  · exact ⟨false, by rw [htmlWrote_eq k t chs out h, newlines_renderWith]; simp [closing]⟩

/-! ### Attribute values -/

theorem value_enc (hn : names.Standard) (q : Char) (hq : q = '"' ∨ q = '\'') (tag : Tag) (name v : Str) (c : Char)
    (rest : Str) : ∃ errs : List Browser.Token, (∀ e ∈ errs, e = .parseError) ∧
      Browser.tokens names 0 (.attrValue (some q) tag name v) (htmlEnc c ++ rest) =
        errs ++ Browser.tokens names 0 (.attrValue (some q) tag name (v ++ [noNulChar c])) rest := by
  unfold htmlEnc
  cases hc : htmlEntity c with
  | some s =>
    obtain ⟨e, rfl⟩ := entity_amp c s hc
    refine ⟨[], by simp, ?_⟩
    have hr : attrReference names (e ++ rest) = some ⟨e.length, [c], true⟩ := by
      unfold attrReference
      rw [reference_enc hn c e rest hc]
      rfl
    have hq' : ¬ some '&' = some q := by rcases hq with rfl | rfl <;> decide
    have hn' : ¬ (some q = none) := by simp
    simp only [Option.getD_some, List.cons_append, Browser.tokens, step, inAttrValue, if_neg hq', hr, hn',
      decide_false, Bool.false_and, Bool.false_eq_true, if_false, if_true]
    rw [tokens_skip, entity_nul c _ hc]
  | none =>
    obtain ⟨h1, h2, h3, h4⟩ := entity_none c hc
    have hq' : ¬ some c = some q := by
      intro h
      obtain rfl := Option.some.inj h
      rcases hq with h | h
      · exact h3 h
      · exact h4 h
    have hn' : ¬ (some q = none) := by simp
    simp only [Option.getD_none, List.cons_append, List.nil_append, Browser.tokens, step, inAttrValue, if_neg hq', hn',
      decide_false, Bool.false_and, Bool.false_eq_true, if_false, h2]
    by_cases h0 : c = '\x00'
    · exact ⟨[.parseError], by simp, by simp [h0, noNulChar]⟩
    · exact ⟨[], by simp, by simp [h0, noNulChar]⟩

theorem value_markup (q : Char) (hq : q = '"' ∨ q = '\'') (tag : Tag) (name : Str) (rest s : Str)
    (hs : ∀ c ∈ s, c ≠ '&' ∧ c ≠ '"' ∧ c ≠ '\'' ∧ c ≠ '\x00') : ∀ v,
      Browser.tokens names 0 (.attrValue (some q) tag name v) (s ++ rest) =
        Browser.tokens names 0 (.attrValue (some q) tag name (v ++ s)) rest := by
  induction s with
  | nil => intro v; simp
  | cons c s ih =>
    intro v
    obtain ⟨h1, h2, h3, h4⟩ := hs c (by simp)
    have hq' : ¬ some c = some q := by
      intro h
      obtain rfl := Option.some.inj h
      rcases hq with h | h
      · exact h2 h
      · exact h3 h
    have hn' : ¬ (some q = none) := by simp
    rw [List.cons_append, Browser.tokens]
    simp only [step, inAttrValue, if_neg hq', hn', decide_false, Bool.false_and, Bool.false_eq_true, if_false, h1, h4]
    rw [ih (fun c hc => hs c (by simp [hc]))]
    simp

theorem value_render (hn : names.Standard) (q : Char) (hq : q = '"' ∨ q = '\'') (tag : Tag) (name : Str) (rest : Str)
    (t : Styled) : ∀ (cur : Style) (v : Str), ∃ errs : List Browser.Token, (∀ e ∈ errs, e = .parseError) ∧
      Browser.tokens names 0 (.attrValue (some q) tag name v) (renderWith htmlSwitch htmlEnc cur t ++ rest) =
        errs ++ Browser.tokens names 0 (.attrValue (some q) tag name (v ++ raw cur t)) rest := by
  induction t with
  | nil => intro cur v; exact ⟨[], by simp, by simp [renderWith, raw]⟩
  | cons x t ih =>
    obtain ⟨c, st⟩ := x
    intro cur v
    obtain ⟨e1, h1, h2⟩ := value_enc hn q hq tag name (v ++ htmlSwitch cur st) c
      (renderWith htmlSwitch htmlEnc st t ++ rest)
    obtain ⟨e2, h3, h4⟩ := ih st (v ++ htmlSwitch cur st ++ [noNulChar c])
    refine ⟨e1 ++ e2, ?_, ?_⟩
    · intro e he
      rcases List.mem_append.1 he with he | he
      · exact h1 e he
      · exact h3 e he
    · rw [renderWith, List.append_assoc, List.append_assoc, value_markup q hq tag name _ _ (switch_chars _ _), h2, h4]
      simp [raw]

/-- A name in small letters. -/
def Plain (name : Str) : Prop := name ≠ [] ∧ ∀ c ∈ name, isLower c = true

theorem lower (c : Char) (h : isLower c = true) : isAlpha c = true ∧ isSpace c = false ∧ c ≠ '/' ∧ c ≠ '>' ∧ c ≠ '=' ∧
    c ≠ '!' ∧ c ≠ '?' ∧ c ≠ '"' ∧ c ≠ '\'' ∧ c ≠ '<' ∧ nameChar c = ([], c) := by
  have hu : isUpper c = false := by
    simp only [isLower, isUpper, Bool.and_eq_true, decide_eq_true_eq, Bool.and_eq_false_iff, decide_eq_false_iff_not] at h ⊢
    right
    intro h2
    have h3 := Char.le_def.1 (Char.le_trans h.1 h2)
    exact absurd h3 (by decide)
  have ne : ∀ d : Char, isLower d = false → c ≠ d := by rintro d hd rfl; rw [h] at hd; cases hd
  refine ⟨by simp [isAlpha, h], ?_, ne _ (by decide), ne _ (by decide), ne _ (by decide), ne _ (by decide), ne _ (by decide),
    ne _ (by decide), ne _ (by decide), ne _ (by decide), ?_⟩
  · simp [isSpace, ne '\t' (by decide), ne '\n' (by decide), ne '\x0c' (by decide), ne ' ' (by decide)]
  · simp [nameChar, hu, ne '\x00' (by decide)]

theorem tag_name (rest s : Str) (hs : ∀ c ∈ s, isLower c = true) : ∀ n,
    Browser.tokens names 0 (.tagName ⟨false, n, []⟩) (s ++ rest) = Browser.tokens names 0 (.tagName ⟨false, n ++ s, []⟩) rest := by
  induction s with
  | nil => intro n; simp
  | cons c s ih =>
    intro n
    obtain ⟨h1, h2, h3, h4, h5, h6, h7, h8, h9, h10, h11⟩ := lower c (hs c (by simp))
    rw [List.cons_append, Browser.tokens]
    simp only [step, inTagName, h2, h3, h4, h11, Bool.false_eq_true, if_false]
    rw [ih (fun c hc => hs c (by simp [hc]))]
    simp

theorem attr_name (t : Tag) (rest s : Str) (hs : ∀ c ∈ s, isLower c = true) : ∀ n,
    Browser.tokens names 0 (.attrName t n) (s ++ rest) = Browser.tokens names 0 (.attrName t (n ++ s)) rest := by
  induction s with
  | nil => intro n; simp
  | cons c s ih =>
    intro n
    obtain ⟨h1, h2, h3, h4, h5, h6, h7, h8, h9, h10, h11⟩ := lower c (hs c (by simp))
    rw [List.cons_append, Browser.tokens]
    simp only [step, inAttrName, h2, h3, h4, h5, h8, h9, h10, h11, Bool.false_eq_true, if_false, decide_false, Bool.or_self]
    rw [ih (fun c hc => hs c (by simp [hc]))]
    simp

/-- `<name attr="` -/
theorem open_value (q : Char) (hq : q = '"' ∨ q = '\'') (name attr rest : Str) (h1 : Plain name) (h2 : Plain attr) :
    Browser.tokens names 0 .data ('<' :: (name ++ (' ' :: (attr ++ ('=' :: q :: rest))))) =
      Browser.tokens names 0 (.attrValue (some q) ⟨false, name, []⟩ attr []) rest := by
  obtain ⟨n1, h1⟩ := h1
  obtain ⟨n2, h2⟩ := h2
  cases name with
  | nil => exact absurd rfl n1
  | cons a name =>
    cases attr with
    | nil => exact absurd rfl n2
    | cons b attr =>
      obtain ⟨a1, a2, a3, a4, a5, a6, a7, a8, a9, a10, a11⟩ := lower a (h1 a (by simp))
      obtain ⟨b1, b2, b3, b4, b5, b6, b7, b8, b9, b10, b11⟩ := lower b (h2 b (by simp))
      have e1 : ∀ s, Browser.tokens names 0 .data ('<' :: s) = Browser.tokens names 0 .tagOpen s := fun _ => rfl
      have e2 : ∀ s, Browser.tokens names 0 .tagOpen (a :: s) = Browser.tokens names 0 (.tagName ⟨false, [a], []⟩) s := by
        intro s
        rw [Browser.tokens]
        simp only [step, inTagName, a1, a2, a3, a4, a6, a7, a11, Bool.false_eq_true, if_false, if_true, decide_false,
          Bool.or_self, List.nil_append]
      have e3 : ∀ t s, Browser.tokens names 0 (.tagName t) (' ' :: s) = Browser.tokens names 0 (.beforeAttrName t) s := fun _ _ => rfl
      have e4 : ∀ t s, Browser.tokens names 0 (.beforeAttrName t) (b :: s) = Browser.tokens names 0 (.attrName t [b]) s := by
        intro t s
        rw [Browser.tokens]
        simp only [step, inBeforeAttrName, inAttrName, b2, b3, b4, b5, b8, b9, b10, b11, Bool.false_eq_true, if_false,
          decide_false, Bool.or_self, List.nil_append]
      have e5 : ∀ t n s, Browser.tokens names 0 (.attrName t n) ('=' :: s) = Browser.tokens names 0 (.beforeAttrValue t n) s :=
        fun _ _ _ => rfl
      have e6 : ∀ t n s, Browser.tokens names 0 (.beforeAttrValue t n) (q :: s) =
          Browser.tokens names 0 (.attrValue (some q) t n []) s := by
        intro t n s
        rcases hq with rfl | rfl <;> rfl
      rw [e1, List.cons_append, e2, tag_name _ _ (fun c hc => h1 c (by simp [hc])), e3, List.cons_append, List.cons_append, e4,
        attr_name _ _ _ (fun c hc => h2 c (by simp [hc])), e5, e6]
      rfl

theorem plain_cr (name : Str) (h : Plain name) : '\r' ∉ name := fun hm => absurd (h.2 _ hm) (by decide)

end Place

/-- C108: in a quoted attribute value of any element, the output ends where it ends: there is exactly this attribute, and what
follows the tag is read as ever. The value is the text that was written (line breaks are normalised, NUL is U+FFFD) if and
only if no character is in a style. It makes no difference whether `finish` was called. -/
theorem C108_attribute (hn : names.Standard) (k : FmtSink T) (t : T) (chs : List Chunk) (out : Str)
    (h : HtmlFinished k t chs out ∨ HtmlWrote k t chs out) (q : Char) (hq : q = '"' ∨ q = '\'') (name attr rest : Str)
    (h1 : Place.Plain name) (h2 : Place.Plain attr) :
    ∃ v errs, (∀ e ∈ errs, e = .parseError) ∧
      tokenize names ('<' :: (name ++ (' ' :: (attr ++ ('=' :: q :: (out ++ q :: '>' :: rest)))))) =
        errs ++ .startTag name [(attr, v)] false :: tokenize names rest ∧
      (v = (text (lineBreaks (flatten chs))).map noNulChar ↔ ∀ x ∈ flatten chs, x.2 = Style.default) := by
  obtain ⟨fin, hout⟩ := Place.newlines_out k t chs out h
  obtain ⟨errs, he, hv⟩ := Place.value_render (names := names) hn q hq ⟨false, name, []⟩ attr
    (Place.closing (lineBreaks (flatten chs)) fin ++ (q :: '>' :: newlines rest)) (lineBreaks (flatten chs)) Style.default []
  refine ⟨Place.raw Style.default (lineBreaks (flatten chs)) ++ Place.closing (lineBreaks (flatten chs)) fin, errs, he, ?_, ?_⟩
  · have hqr : q ≠ '\r' := by rcases hq with rfl | rfl <;> decide
    have hqn : q ≠ '\n' := by rcases hq with rfl | rfl <;> decide
    have e1 : newlines ('<' :: (name ++ (' ' :: (attr ++ ('=' :: q :: (out ++ q :: '>' :: rest)))))) =
        '<' :: (name ++ (' ' :: (attr ++ ('=' :: q :: (newlines out ++ q :: '>' :: newlines rest))))) := by
      have := newlines_append ('<' :: (name ++ (' ' :: (attr ++ ['=', q])))) (out ++ q :: '>' :: rest) (by
        simp [Place.plain_cr name h1, Place.plain_cr attr h2, Ne.symm hqr])
      simp only [List.cons_append, List.append_assoc, List.nil_append] at this
      rw [this, newlines_seam _ _ (Nat.le_refl _) _ (.inr (by simpa using hqn))]
      have e := newlines_append [q, '>'] rest (by simp [Ne.symm hqr])
      simp only [List.cons_append, List.nil_append] at e
      rw [e]
    rw [tokenize, e1, Place.open_value q hq name attr _ h1 h2, hout, List.append_assoc, hv, List.nil_append]
    congr 1
    have hcl : ∀ c ∈ Place.closing (lineBreaks (flatten chs)) fin, c ≠ '&' ∧ c ≠ '"' ∧ c ≠ '\'' ∧ c ≠ '\x00' := by
      unfold Place.closing
      split
      · exact Place.switch_chars _ _
      · intro c hc; simp at hc
    rw [Place.value_markup q hq _ _ _ _ hcl, Browser.tokens]
    simp only [step, inAttrValue, if_true, Tag.add, List.any_nil, Bool.false_eq_true, if_false, List.nil_append]
    rfl
  · rw [Place.raw_iff, Place.unstyled_lineBreaks _ _ (Nat.le_refl _)]
    simp [Place.unstyled]

/-! ### Titles and text areas -/

namespace Place

theorem text_skip (name w rest : Str) : textOnly names name w.length (w ++ rest) = textOnly names name 0 rest := by
  induction w with
  | nil => rfl
  | cons c w ih => rw [List.length_cons, List.cons_append, textOnly, ih]

theorem text_enc (hn : names.Standard) (name : Str) (c : Char) (rest : Str) :
    textOnly names name 0 (htmlEnc c ++ rest) =
      (noNulChar c :: (textOnly names name 0 rest).1, (textOnly names name 0 rest).2) := by
  unfold htmlEnc
  cases hc : htmlEntity c with
  | some s =>
    obtain ⟨e, rfl⟩ := entity_amp c s hc
    simp only [Option.getD_some, List.cons_append, textOnly, if_true, reference_enc hn c e rest hc]
    rw [text_skip, entity_nul c _ hc]
    rfl
  | none =>
    obtain ⟨h1, h2, -, -⟩ := entity_none c hc
    simp only [Option.getD_none, List.cons_append, List.nil_append, textOnly, h1, h2, if_false, false_and]

/-- The elements that are read like this. -/
def TextElement (name : Str) : Prop := name = str "title" ∨ name = str "textarea"

/-- Markup that has no tag of the element in it. -/
theorem text_chars (name rest s : Str) (hs : ∀ c ∈ s, c ≠ '&' ∧ c ≠ '\x00' ∧ c ≠ '<') :
    textOnly names name 0 (s ++ rest) = (s ++ (textOnly names name 0 rest).1, (textOnly names name 0 rest).2) := by
  induction s with
  | nil => rfl
  | cons c s ih =>
    obtain ⟨h1, h2, h3⟩ := hs c (by simp)
    rw [List.cons_append, textOnly]
    simp only [h1, h3, if_false, false_and, ih (fun c hc => hs c (by simp [hc])), noNulChar, h2]
    rfl

theorem text_lt (name rest : Str) (h : endsHere name rest = false) :
    textOnly names name 0 ('<' :: rest) = ('<' :: (textOnly names name 0 rest).1, (textOnly names name 0 rest).2) := by
  have hne : ('<' : Char) ≠ '&' := by decide
  rw [textOnly]
  simp only [hne, if_false, h, Bool.false_eq_true, and_false, noNulChar]
  rfl

theorem text_switch (name : Str) (hname : TextElement name) (a b : Style) (rest : Str) :
    textOnly names name 0 (htmlSwitch a b ++ rest) =
      (htmlSwitch a b ++ (textOnly names name 0 rest).1, (textOnly names name 0 rest).2) := by
  have hclose : ∀ rest, textOnly names name 0 (htmlClose a ++ rest) =
      (htmlClose a ++ (textOnly names name 0 rest).1, (textOnly names name 0 rest).2) := by
    intro rest
    unfold htmlClose
    split
    · have e : str "</span>" = '<' :: str "/span>" := by decide
      rw [e, List.cons_append, text_lt, text_chars _ _ (str "/span>") (by decide)]
      · rfl
      · rcases hname with rfl | rfl <;> rfl
    · rfl
  rw [htmlSwitch_eq]
  split
  · rfl
  · split
    · rw [List.append_nil]; exact hclose rest
    · rename_i hb
      have e : str "<span style=" = '<' :: str "span style=" := by decide
      have hv : ∀ c ∈ str "span style=" ++ (valueOf b ++ str ">"), c ≠ '&' ∧ c ≠ '\x00' ∧ c ≠ '<' := by
        intro c hc
        rcases List.mem_append.1 hc with hc | hc
        · have : ∀ c ∈ str "span style=", c ≠ '&' ∧ c ≠ '\x00' ∧ c ≠ '<' := by decide
          exact this c hc
        · rcases List.mem_append.1 hc with hc | hc
          · have hl := legalValue_valueOf b hb
            simp only [HtmlReader.legalValue, Bool.and_eq_true, List.all_eq_true] at hl
            have := hl.2 c hc
            refine ⟨?_, ?_, ?_⟩ <;> rintro rfl <;> exact absurd this (by decide)
          · have : ∀ c ∈ str ">", c ≠ '&' ∧ c ≠ '\x00' ∧ c ≠ '<' := by decide
            exact this c hc
      rw [e]
      simp only [List.cons_append, List.append_assoc]
      rw [hclose, text_lt]
      · have := text_chars (names := names) name rest _ hv
        simp only [List.append_assoc] at this
        rw [this]
      · rfl

theorem text_render (hn : names.Standard) (name : Str) (hname : TextElement name) (rest : Str) (t : Styled) : ∀ cur,
    textOnly names name 0 (renderWith htmlSwitch htmlEnc cur t ++ rest) =
      (raw cur t ++ (textOnly names name 0 rest).1, (textOnly names name 0 rest).2) := by
  induction t with
  | nil => intro cur; rfl
  | cons x t ih =>
    obtain ⟨c, st⟩ := x
    intro cur
    rw [renderWith, List.append_assoc, List.append_assoc, text_switch name hname, text_enc hn, ih, raw]
    simp

end Place

/-- C108: in a `title` or a `textarea`, after its start tag, the output ends where it ends, at the end tag of the element. It is
read as the text that was written (line breaks are normalised, NUL is U+FFFD) if and only if no character is in a style;
otherwise there are tags in the text. -/
theorem C108_text_element (hn : names.Standard) (k : FmtSink T) (t : T) (chs : List Chunk) (out : Str)
    (h : HtmlFinished k t chs out ∨ HtmlWrote k t chs out) (name rest : Str)
    (hname : name = str "title" ∨ name = str "textarea") :
    ∃ v, textElement names name (out ++ (str "</" ++ name ++ str ">" ++ rest)) =
        (v, str "</" ++ name ++ str ">" ++ newlines rest) ∧
      (v = (text (lineBreaks (flatten chs))).map noNulChar ↔ ∀ x ∈ flatten chs, x.2 = Style.default) := by
  obtain ⟨fin, hout⟩ := Place.newlines_out k t chs out h
  refine ⟨Place.raw Style.default (lineBreaks (flatten chs)) ++ Place.closing (lineBreaks (flatten chs)) fin, ?_, ?_⟩
  · have hcr : '\r' ∉ str "</" ++ name ++ str ">" := by rcases hname with rfl | rfl <;> decide
    rw [textElement, newlines_seam _ _ (Nat.le_refl _) _ (.inr (by simp [str])), newlines_append _ _ hcr, hout,
      List.append_assoc, Place.text_render hn name hname]
    have hend : textOnly names name 0 (str "</" ++ name ++ str ">" ++ newlines rest) =
        ([], str "</" ++ name ++ str ">" ++ newlines rest) := by
      rcases hname with rfl | rfl <;> rfl
    have hcl : textOnly names name 0 (Place.closing (lineBreaks (flatten chs)) fin ++ (str "</" ++ name ++ str ">" ++ newlines rest)) =
        (Place.closing (lineBreaks (flatten chs)) fin, str "</" ++ name ++ str ">" ++ newlines rest) := by
      unfold Place.closing
      split
      · rw [Place.text_switch name hname, hend]; simp
      · exact hend
    rw [hcl]
  · rw [Place.raw_iff, Place.unstyled_lineBreaks _ _ (Nat.le_refl _)]
    simp [Place.unstyled]

/-! ### Samples -/

/-- A text that would end a quoted value, its tag and a title, if it were not escaped. -/
def placeSample : List Chunk := [(str "\" onclick='x'></title>&lt;", Style.default)]

example :
    let escaped := str "&quot; onclick=&#x27;x&#x27;&gt;&lt;/title&gt;&amp;lt;"
    HtmlFinished stringSink StdString.new placeSample escaped ∧
    tokenize someNames (str "<a title=\"" ++ escaped ++ str "\">b") =
      [.startTag (str "a") [(str "title", str "\" onclick='x'></title>&lt;")] false, .char 'b'] ∧
    textElement someNames (str "title") (escaped ++ str "</title>b") =
      (str "\" onclick='x'></title>&lt;", str "</title>b") ∧
    -- unescaped
    tokenize someNames (str "<a title=\"" ++ str "\" onclick='x'></title>&lt;" ++ str "\">b") ≠
      [.startTag (str "a") [(str "title", str "\" onclick='x'></title>&lt;")] false, .char 'b'] ∧
    textElement someNames (str "title") (str "\" onclick='x'></title>&lt;" ++ str "</title>b") =
      (str "\" onclick='x'>", str "</title>&lt;</title>b") ∧
    Place.Plain (str "a") ∧ Place.Plain (str "title") := by
  refine ⟨?_, by decide +kernel, by decide +kernel, by decide +kernel, by decide +kernel, ⟨by decide, by decide⟩,
    ⟨by decide, by decide⟩⟩
  have := (htmlFinished_exists stringSink stringSink_accepting StdString.new placeSample).2
  have e : htmlRender (flatten placeSample) = str "&quot; onclick=&#x27;x&#x27;&gt;&lt;/title&gt;&amp;lt;" := by decide +kernel
  rw [e] at this
  exact this

/-- C108: the quotes are needed: in an attribute value without them, the text can add attributes to the tag. -/
theorem C108_unquoted_counterexample :
    let chs : List Chunk := [(str "x onclick=y", Style.default)]
    ∃ out, HtmlFinished stringSink StdString.new chs out ∧
      tokenize names (str "<a title=" ++ out ++ str ">") =
        [.startTag (str "a") [(str "title", str "x"), (str "onclick", str "y")] false] := by
  intro chs
  have h := (htmlFinished_exists stringSink stringSink_accepting StdString.new chs).2
  refine ⟨_, h, ?_⟩
  have e : htmlRender (flatten chs) = str "x onclick=y" := by decide +kernel
  rw [e]
  rfl

end Stylish.Props
