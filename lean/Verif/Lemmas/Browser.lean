import Verif.Lemmas.FailureHtml
import Verif.Spec.Browser
/-
The browser's tokenizer on pages which the strict reader accepts.
-/

namespace Stylish

open Spec

open Spec.Browser

variable {names : Names}

theorem tokens_skip (st : State) (w rest : Str) :
    Browser.tokens names w.length st (w ++ rest) = Browser.tokens names 0 st rest := by
  induction w with
  | nil => rfl
  | cons c w ih => rw [List.length_cons, List.cons_append, Browser.tokens, ih]

theorem longest_none (h : names.Standard) (cs : Str) : ∀ acc, ';' ∈ acc → longest names acc cs = none := by
  induction cs with
  | nil => intros; rfl
  | cons c cs ih =>
    intro acc hacc
    rw [longest, ih (acc ++ [c]) (by simp [hacc])]
    cases hn : names (acc ++ [c]) with
    | none => rfl
    | some v =>
      obtain ⟨a, b, rfl⟩ := List.append_of_mem hacc
      have := h.semicolon a (b ++ [c]) (by rw [List.append_assoc, List.cons_append] at hn; rw [hn]; simp)
      simp at this

theorem longest_name (h : names.Standard) (rest : Str) (v : List Char) (m : Str) :
    ∀ acc, names (acc ++ m ++ [';']) = some v →
      longest names acc (m ++ ';' :: rest) = some (acc.length + m.length + 1, v) := by
  induction m with
  | nil =>
    intro acc hn
    rw [List.nil_append, longest, longest_none h rest _ (by simp)]
    rw [List.append_nil] at hn
    simp [hn]
  | cons c m ih =>
    intro acc hn
    rw [List.cons_append, longest, ih (acc ++ [c]) (by simpa using hn)]
    simp; omega

/-- The browser's token for a token of the strict reader. -/
def browserTokens : HtmlReader.Token → List Browser.Token
  | .open v => [.startTag (str "span") [(str "style", v)] false]
  | .close => [.endTag (str "span")]
  | .char c => if c = '\x00' then [.parseError, .char c] else [.char c]

theorem tokens_char (c : Char) (cs : Str) (h1 : c ≠ '<') (h2 : c ≠ '&') :
    Browser.tokens names 0 .data (c :: cs) = browserTokens (.char c) ++ Browser.tokens names 0 .data cs := by
  rw [Browser.tokens]
  simp only [step, inData, if_neg h1, if_neg h2, browserTokens]
  split <;> rfl

theorem tokens_ref (h : names.Standard) (name rest : Str) (d : Char) (hd : HtmlReader.charRef name = some d) :
    Browser.tokens names 0 .data ('&' :: (name ++ ';' :: rest)) =
      browserTokens (.char d) ++ Browser.tokens names 0 .data rest := by
  have named : ∀ (m : Str) (c : Char), names (m ++ [';']) = some [c] → m.head? ≠ some '#' → m ≠ [] → c ≠ '\x00' →
      Browser.tokens names 0 .data ('&' :: (m ++ ';' :: rest)) =
        browserTokens (.char c) ++ Browser.tokens names 0 .data rest := by
    intro m c hm hh hne hc
    have hl := longest_name h rest [c] m [] (by simpa using hm)
    have hr : reference names (m ++ ';' :: rest) = some ⟨m.length + 1, [c], true⟩ := by
      cases m with
      | nil => exact absurd rfl hne
      | cons a m =>
        have ha : a ≠ '#' := by simpa using hh
        have : reference names (a :: m ++ ';' :: rest) =
            (longest names [] (a :: m ++ ';' :: rest)).map fun (n, v) =>
              ⟨n, v, ((a :: m ++ ';' :: rest).take n).getLast? = some ';'⟩ := by
          rw [List.cons_append]
          unfold reference
          split
          · rename_i e; exact absurd (List.cons.inj e).1 ha
          · rename_i e; exact absurd (List.cons.inj e).1 ha
          · rename_i e; exact absurd (List.cons.inj e).1 ha
          · rfl
        rw [this, hl]
        have e : (a :: m ++ ';' :: rest) = (a :: m ++ [';']) ++ rest := by simp
        have e2 : (a :: m ++ ';' :: rest).take (([] : Str).length + (a :: m).length + 1) = a :: m ++ [';'] := by
          rw [e]
          exact List.take_left' (by simp)
        have e3 : (a :: m ++ [';']).getLast? = some ';' := List.getLast?_concat ..
        simp only [Option.map_some, e2, e3]
        simp
    rw [Browser.tokens]
    simp only [step, inData, if_true, hr]
    have e : m ++ ';' :: rest = (m ++ [';']) ++ rest := by simp
    have el : m.length + 1 = (m ++ [';']).length := by simp
    rw [e, el, tokens_skip]
    simp [browserTokens, hc]
  unfold HtmlReader.charRef at hd
  by_cases h1 : name = str "lt"
  · rw [if_pos h1] at hd; subst h1; obtain rfl := Option.some.inj hd
    exact named _ _ h.lt (by decide) (by decide) (by decide)
  rw [if_neg h1] at hd
  by_cases h2 : name = str "gt"
  · rw [if_pos h2] at hd; subst h2; obtain rfl := Option.some.inj hd
    exact named _ _ h.gt (by decide) (by decide) (by decide)
  rw [if_neg h2] at hd
  by_cases h3 : name = str "amp"
  · rw [if_pos h3] at hd; subst h3; obtain rfl := Option.some.inj hd
    exact named _ _ h.amp (by decide) (by decide) (by decide)
  rw [if_neg h3] at hd
  by_cases h4 : name = str "quot"
  · rw [if_pos h4] at hd; subst h4; obtain rfl := Option.some.inj hd
    exact named _ _ h.quot (by decide) (by decide) (by decide)
  rw [if_neg h4] at hd
  by_cases h5 : name = str "#x27"
  · rw [if_pos h5] at hd; subst h5; obtain rfl := Option.some.inj hd
    rfl
  · rw [if_neg h5] at hd; cases hd

theorem tokens_value (t : Tag) (n v rest : Str) (hv : v.all (fun c => !HtmlReader.illegalInValue.contains c) = true)
    (acc : Str) :
    Browser.tokens names 0 (.attrValue none t n acc) (v ++ '>' :: rest) =
      (t.add n (acc ++ v)).1 ++ (t.add n (acc ++ v)).2.emit false ++ Browser.tokens names 0 .data rest := by
  induction v generalizing acc with
  | nil =>
    rw [List.nil_append, Browser.tokens, List.append_nil]
    simp [step, inAttrValue, isSpace]
  | cons c v ih =>
    simp only [List.all_cons, Bool.and_eq_true] at hv
    obtain ⟨hc, hv⟩ := hv
    have hc : ∀ d ∈ HtmlReader.illegalInValue, c ≠ d := by
      rintro d hd rfl
      simp [hd] at hc
    have hs : isSpace c = false := by
      simp [isSpace, hc '\t' (by decide), hc '\n' (by decide), hc '\x0c' (by decide), hc ' ' (by decide)]
    rw [List.cons_append, Browser.tokens]
    simp only [step, inAttrValue, hs]
    simp only [hc '>' (by decide), hc '&' (by decide), hc '\x00' (by decide), hc '"' (by decide), hc '\'' (by decide),
      hc '<' (by decide), hc '=' (by decide), hc '`' (by decide)]
    have := ih hv (acc ++ [c])
    simpa using this

theorem tokens_tag (inner rest : Str) (t : HtmlReader.Token) (ht : HtmlReader.tag inner = some t) :
    Browser.tokens names 0 .data ('<' :: (inner ++ '>' :: rest)) =
      browserTokens t ++ Browser.tokens names 0 .data rest := by
  unfold HtmlReader.tag at ht
  split at ht
  · rename_i h
    subst h
    obtain rfl := Option.some.inj ht
    rfl
  · obtain ⟨v, hv, ht⟩ := Option.bind_eq_some_iff.1 ht
    split at ht
    · rename_i hl
      obtain rfl := Option.some.inj ht
      have := after_some _ _ _ hv
      subst this
      have e1 : Browser.tokens names 0 .data ('<' :: ((str "span style=" ++ v) ++ '>' :: rest)) =
          Browser.tokens names 0 (.beforeAttrValue ⟨false, str "span", []⟩ (str "style")) (v ++ '>' :: rest) := rfl
      rw [e1]
      simp only [HtmlReader.legalValue, Bool.and_eq_true] at hl
      obtain ⟨hne, hall⟩ := hl
      have e2 := tokens_value (names := names) ⟨false, str "span", []⟩ (str "style") v rest hall []
      cases v with
      | nil => simp at hne
      | cons c v =>
        have hc : ∀ d ∈ HtmlReader.illegalInValue, c ≠ d := by
          rintro d hd rfl
          simp [hd] at hall
        have hs : isSpace c = false := by
          simp [isSpace, hc '\t' (by decide), hc '\n' (by decide), hc '\x0c' (by decide), hc ' ' (by decide)]
        have e3 : step names (.beforeAttrValue ⟨false, str "span", []⟩ (str "style")) c (v ++ '>' :: rest) =
            step names (.attrValue none ⟨false, str "span", []⟩ (str "style") []) c (v ++ '>' :: rest) := by
          simp only [step, hs, hc '"' (by decide), hc '\'' (by decide), hc '>' (by decide)]
          rfl
        rw [List.cons_append, Browser.tokens, e3]
        rw [List.cons_append, Browser.tokens] at e2
        rw [e2]
        rfl
    · cases ht

theorem lex_tag_split (cs : Str) : ∀ (acc : Str) (ts : List HtmlReader.Token),
    HtmlReader.lex (.tag acc) cs = some ts → ∃ inner rest t ts', cs = inner ++ '>' :: rest ∧
      HtmlReader.tag (acc ++ inner) = some t ∧ HtmlReader.lex .data rest = some ts' ∧ ts = t :: ts' := by
  induction cs with
  | nil => intro acc ts h; simp [HtmlReader.lex] at h
  | cons c cs ih =>
    intro acc ts h
    rw [HtmlReader.lex] at h
    split at h
    · rename_i hc
      obtain ⟨t, ht, h⟩ := Option.bind_eq_some_iff.1 h
      obtain ⟨ts', h1, rfl⟩ := Option.map_eq_some_iff.1 h
      exact ⟨[], cs, t, ts', by simp [hc], by simpa using ht, h1, rfl⟩
    · obtain ⟨inner, rest, t, ts', rfl, h1, h2, h3⟩ := ih _ _ h
      exact ⟨c :: inner, rest, t, ts', rfl, by simpa using h1, h2, h3⟩

theorem lex_ref_split (cs : Str) : ∀ (acc : Str) (ts : List HtmlReader.Token),
    HtmlReader.lex (.ref acc) cs = some ts → ∃ inner rest d ts', cs = inner ++ ';' :: rest ∧
      HtmlReader.charRef (acc ++ inner) = some d ∧ HtmlReader.lex .data rest = some ts' ∧ ts = .char d :: ts' := by
  induction cs with
  | nil => intro acc ts h; simp [HtmlReader.lex] at h
  | cons c cs ih =>
    intro acc ts h
    rw [HtmlReader.lex] at h
    split at h
    · rename_i hc
      obtain ⟨t, ht, h⟩ := Option.bind_eq_some_iff.1 h
      obtain ⟨ts', h1, rfl⟩ := Option.map_eq_some_iff.1 h
      exact ⟨[], cs, t, ts', by simp [hc], by simpa using ht, h1, rfl⟩
    · obtain ⟨inner, rest, t, ts', rfl, h1, h2, h3⟩ := ih _ _ h
      exact ⟨c :: inner, rest, t, ts', rfl, by simpa using h1, h2, h3⟩

/-- The strict reader is right about the pages it accepts: their tokens are those of the standard, whatever
comes next. -/
theorem tokens_of_strict (h : names.Standard) (after : Str) (n : Nat) : ∀ (p : Str), p.length ≤ n →
    ∀ ts : List HtmlReader.Token, HtmlReader.lex .data p = some ts →
    Browser.tokens names 0 .data (p ++ after) = ts.flatMap browserTokens ++ Browser.tokens names 0 .data after := by
  induction n with
  | zero =>
    intro p hp ts hts
    obtain rfl := List.eq_nil_of_length_eq_zero (Nat.le_zero.1 hp)
    obtain rfl := Option.some.inj hts
    rfl
  | succ n ih =>
    intro p hp ts hts
    cases p with
    | nil => obtain rfl := Option.some.inj hts; rfl
    | cons c cs =>
      have hp : cs.length ≤ n := Nat.le_of_succ_le_succ hp
      rw [HtmlReader.lex] at hts
      by_cases h1 : c = '<'
      · rw [if_pos h1] at hts
        obtain ⟨inner, rest, t, ts', rfl, ht, hts', rfl⟩ := lex_tag_split _ _ _ hts
        subst h1
        have e : '<' :: (inner ++ '>' :: rest) ++ after = '<' :: (inner ++ '>' :: (rest ++ after)) := by simp
        rw [e, tokens_tag inner (rest ++ after) t ht, List.flatMap_cons, List.append_assoc,
          ih rest (by simp at hp; omega) ts' hts']
      · rw [if_neg h1] at hts
        by_cases h2 : c = '&'
        · rw [if_pos h2] at hts
          obtain ⟨inner, rest, t, ts', rfl, ht, hts', rfl⟩ := lex_ref_split _ _ _ hts
          subst h2
          have e : '&' :: (inner ++ ';' :: rest) ++ after = '&' :: (inner ++ ';' :: (rest ++ after)) := by simp
          rw [e, tokens_ref h inner (rest ++ after) t ht, List.flatMap_cons, List.append_assoc,
            ih rest (by simp at hp; omega) ts' hts']
        · rw [if_neg h2] at hts
          obtain ⟨ts', h3, rfl⟩ := Option.map_eq_some_iff.1 hts
          rw [List.cons_append, tokens_char c (cs ++ after) h1 h2, List.flatMap_cons, List.append_assoc,
            ih cs hp ts' h3]

/-- And what it shows. -/
theorem build_of_strict (ts : List HtmlReader.Token) : ∀ (stack : List Style) (r : Styled),
    HtmlReader.page stack ts = some r → build stack (ts.flatMap browserTokens) = some (noNul r) := by
  induction ts with
  | nil =>
    intro stack r h
    cases stack with
    | nil => obtain rfl := Option.some.inj h; rfl
    | cons => simp [HtmlReader.page] at h
  | cons t ts ih =>
    intro stack r h
    cases t with
    | char c =>
      rw [HtmlReader.page] at h
      obtain ⟨r', h1, rfl⟩ := Option.map_eq_some_iff.1 h
      rw [List.flatMap_cons]
      by_cases hc : c = '\x00'
      · simp [browserTokens, hc, build, ih stack r' h1, noNul]
      · simp [browserTokens, hc, build, ih stack r' h1, noNul]
    | «open» v =>
      rw [HtmlReader.page] at h
      obtain ⟨st, h1, h2⟩ := Option.bind_eq_some_iff.1 h
      rw [List.flatMap_cons]
      have e : spanStyle [(str "style", v)] (stack.headD ⟨.Default, .Default, .Normal⟩) = some st := by
        rw [← h1]
        simp [spanStyle, List.lookup]
      simp only [browserTokens, List.cons_append, List.nil_append, build, if_true, e, Option.bind_some]
      exact ih _ r h2
    | close =>
      cases stack with
      | nil => simp [HtmlReader.page] at h
      | cons s stack =>
        rw [HtmlReader.page] at h
        rw [List.flatMap_cons]
        simp [browserTokens, build, ih _ r h]

theorem newlines_append (a b : Str) (h : '\r' ∉ a) : newlines (a ++ b) = a ++ newlines b := by
  induction a with
  | nil => rfl
  | cons c a ih =>
    have hc : c ≠ '\r' := by rintro rfl; simp at h
    rw [List.cons_append, newlines, ih (by simp at h; exact h.2)]
    · rfl
    · exact fun _ e => absurd e hc
    · exact fun e => absurd e hc

theorem newlines_cr (s : Str) (h : s.head? ≠ some '\n') : newlines ('\r' :: s) = '\n' :: newlines s := by
  cases s with
  | nil => rfl
  | cons c s =>
    rw [newlines]
    intro cs e
    injection e with e1 e2
    simp [e1] at h

end Stylish
