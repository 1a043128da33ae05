import Verif.Lemmas.Grammar
/-
The parser of format specifications, placeholders and whole format strings.
-/

namespace Stylish

open Nom Format Spec.Syntax

variable {E : Env}

/-! ### Alignment -/

theorem parseAlign_print (a : Align) (rest : Str) : parseAlign (printAlign a :: rest) = .ok rest a := by
  cases a <;> rfl

theorem parseAlign_sound {s rest : Str} {a : Align} (h : parseAlign s = .ok rest a) :
    s = printAlign a :: rest := by
  simp only [parseAlign, alt_cons, alt_one, orElse_ok_iff, value_ok_iff, tag_ok_iff] at h
  rcases h with ⟨⟨_, h, -⟩, rfl⟩ | ⟨-, ⟨⟨_, h, -⟩, rfl⟩ | ⟨-, ⟨⟨_, h, -⟩, rfl⟩⟩⟩ <;> exact h

theorem parseAlign_error_iff (s : Str) : parseAlign s = .error ↔ startsWithAlign s = false := by
  cases s with
  | nil => exact ⟨fun _ => rfl, fun _ => rfl⟩
  | cons c cs =>
    simp only [parseAlign, alt_cons, alt_one, orElse_error_iff, value_error_iff, tag_error_iff,
      startsWithAlign, List.head?_cons]
    have : ∀ d : Char, ([d] <+: c :: cs) ↔ c = d := by
      intro d
      constructor
      · rintro ⟨r, hr⟩; exact ((List.cons.inj hr).1).symm
      · rintro rfl; exact ⟨cs, rfl⟩
    simp only [show str "<" = ['<'] from rfl, show str "^" = ['^'] from rfl,
      show str ">" = ['>'] from rfl, this]
    simp [and_assoc]

theorem startsWithAlign_print (a : Align) (s : Str) : startsWithAlign (printAlign a :: s) = true := by
  cases a <;> rfl

theorem fillAlign_none {s : Str} (h1 : startsWithAlign s = false)
    (h2 : ∀ c cs, s = c :: cs → startsWithAlign cs = false) : parseFillAlign s = .ok s none := by
  refine opt_none ?_
  simp only [alt_cons, alt_one, orElse_error_iff, map_error_iff, pair_error_iff]
  refine ⟨?_, (parseAlign_error_iff s).2 h1⟩
  cases s with
  | nil => left; rfl
  | cons c cs => right; exact ⟨cs, c, rfl, (parseAlign_error_iff cs).2 (h2 c cs rfl)⟩

theorem fillAlign_align (a : Align) {s : Str} (h : startsWithAlign s = false) :
    parseFillAlign (printAlign a :: s) = .ok s (some (' ', a)) := by
  refine opt_some ?_
  simp only [alt_cons, alt_one, orElse_ok_iff]
  right
  constructor
  · rw [pair_error_iff]
    right
    exact ⟨s, printAlign a, rfl, (parseAlign_error_iff s).2 h⟩
  · rw [map_ok_iff]
    exact ⟨a, parseAlign_print a s, rfl⟩

theorem fillAlign_fill (c : Char) (a : Align) (s : Str) :
    parseFillAlign (c :: printAlign a :: s) = .ok s (some (c, a)) := by
  refine opt_some ?_
  simp only [alt_cons, alt_one, orElse_ok_iff]
  left
  rw [pair_ok_iff]
  exact ⟨printAlign a :: s, rfl, parseAlign_print a s⟩

theorem fillAlign_sound {s rest : Str} {o : Option (Char × Align)} (h : parseFillAlign s = .ok rest o) :
    (o = none ∧ rest = s ∧ startsWithAlign s = false ∧ ∀ c cs, s = c :: cs → startsWithAlign cs = false) ∨
    (∃ a, o = some (' ', a) ∧ s = printAlign a :: rest) ∨
    (∃ c a, o = some (c, a) ∧ s = c :: printAlign a :: rest) := by
  unfold parseFillAlign at h
  rw [opt_ok_iff] at h
  simp only [alt_cons, alt_one, orElse_ok_iff, orElse_error_iff, pair_ok_iff, pair_error_iff, map_ok_iff,
    map_error_iff, anychar, satisfy_ok_iff] at h
  rcases h with ⟨⟨c, a⟩, rfl, ⟨s1, ⟨rfl, -⟩, h⟩ | ⟨-, a', h, e⟩⟩ | ⟨rfl, rfl, h1, h2⟩
  · exact Or.inr (Or.inr ⟨c, a, rfl, by rw [parseAlign_sound h]⟩)
  · obtain ⟨rfl, rfl⟩ := Prod.mk.inj e
    exact Or.inr (Or.inl ⟨a', rfl, parseAlign_sound h⟩)
  · refine Or.inl ⟨rfl, rfl, (parseAlign_error_iff _).1 h2, ?_⟩
    rintro c cs rfl
    rcases h1 with h1 | ⟨s', a, ⟨h1, -⟩, h3⟩
    · simp [satisfy] at h1
    · cases h1
      exact (parseAlign_error_iff _).1 h3

/-! ### Which characters occur -/

theorem color_mem_letter (n : ColorName) (c : Char) (h : c ∈ n.print) : c.isLower = true := by
  cases n <;> simp only [ColorName.print] at h <;> revert c <;> decide

theorem attr_mem (a : Attr) (c : Char) (h : c ∈ a.print) : c.isLower = true ∨ c = '=' := by
  cases a with
  | fg n =>
    simp only [Attr.print, List.mem_append] at h
    rcases h with h | h
    · revert c; decide
    · exact Or.inl (color_mem_letter n c h)
  | bg n =>
    simp only [Attr.print, List.mem_append] at h
    rcases h with h | h
    · revert c; decide
    · exact Or.inl (color_mem_letter n c h)
  | normal => simp only [Attr.print] at h; revert c; decide
  | bold => simp only [Attr.print] at h; revert c; decide
  | faint => simp only [Attr.print] at h; revert c; decide

theorem attrs_mem (as : List Attr) (c : Char) (h : c ∈ printAttrs as) :
    c.isLower = true ∨ c = '=' ∨ c = ',' := by
  cases as with
  | nil => simp [printAttrs] at h
  | cons a as =>
    simp only [printAttrs, List.mem_append, List.mem_flatMap, List.mem_cons] at h
    rcases h with h | ⟨b, -, rfl | h⟩
    · rcases attr_mem a c h with h | h
      · exact Or.inl h
      · exact Or.inr (Or.inl h)
    · exact Or.inr (Or.inr rfl)
    · rcases attr_mem b c h with h | h
      · exact Or.inl h
      · exact Or.inr (Or.inl h)

theorem attrsSyn_mem (a : AttrsSyn) (c : Char) (h : c ∈ a.print) :
    c.isLower = true ∨ c ∈ ['=', ',', '(', ')'] := by
  simp only [AttrsSyn.print, List.mem_append, List.mem_singleton] at h
  rcases h with ((rfl | h) | h) | rfl
  · right; decide
  · rcases attrs_mem _ c h with h | rfl | rfl
    · exact Or.inl h
    · right; decide
    · right; decide
  · split at h
    · rw [List.mem_singleton] at h; subst h; right; decide
    · simp at h
  · right; decide

theorem ty_mem (t : Ty) (c : Char) (h : c ∈ t.print) : c ∈ str "?xXopbeEs" := by
  cases t <;> simp only [Ty.print] at h <;> revert c <;> decide

/-- A character that is not in the printed form of any attribute list or type. -/
def Outside (c : Char) : Prop := Punct c ∧ c ∉ ['=', ',', '(', ')', '?']

instance (c : Char) : Decidable (Outside c) := inferInstanceAs (Decidable (_ ∧ _))

theorem isLower_alphanum {c : Char} (h : c.isLower = true) : c.isAlphanum = true := by
  simp [Char.isAlphanum, Char.isAlpha, h]

theorem Outside.not_attrs {c : Char} (h : Outside c) (a : AttrsSyn) : c ∉ a.print := by
  intro hm
  rcases attrsSyn_mem a c hm with h1 | h1
  · have := isLower_alphanum h1
    rw [h.1.2.1] at this; cases this
  · apply h.2
    simp only [List.mem_cons, List.not_mem_nil, or_false] at h1 ⊢
    rcases h1 with h1 | h1 | h1 | h1 <;> simp [h1]

theorem Outside.not_ty {c : Char} (h : Outside c) (t : Ty) : c ∉ t.print := by
  intro hm
  have := ty_mem t c hm
  have h2 : ∀ d ∈ str "?xXopbeEs", d = '?' ∨ d.isAlphanum = true := by decide
  rcases h2 c this with rfl | h3
  · exact h.2 (by decide)
  · rw [h.1.2.1] at h3; cases h3

theorem ref_not_mem (hE : E.Lawful) (r : ArgRef) (hd : r.Documented E) {c : Char} (hc : Punct c) :
    c ∉ r.print := by
  cases r with
  | index ds => exact numeral_ne hd hc
  | name n => exact hE.ident_ne hd hc

theorem count_not_mem (hE : E.Lawful) (k : CountSyn) (hd : k.Documented E) {c : Char} (hc : Punct c)
    (h2 : c ≠ '$') : c ∉ k.print := by
  cases k with
  | lit ds => exact numeral_ne hd hc
  | param r =>
    simp only [CountSyn.print, List.mem_append, List.mem_singleton, not_or]
    exact ⟨ref_not_mem hE r hd hc, h2⟩

/-! ### The parts of a specification, from the last to the first -/

def SpecSyn.p7 (s : SpecSyn) : Str := optStr AttrsSyn.print s.attrs ++ s.ty.print

def SpecSyn.p6 (s : SpecSyn) : Str := optStr PrecisionSyn.print s.precision ++ SpecSyn.p7 s

def SpecSyn.p5 (s : SpecSyn) : Str := optStr CountSyn.print s.width ++ SpecSyn.p6 s

def SpecSyn.p4 (s : SpecSyn) : Str := (if s.zero then ['0'] else []) ++ SpecSyn.p5 s

def SpecSyn.p3 (s : SpecSyn) : Str := (if s.alternate then ['#'] else []) ++ SpecSyn.p4 s

def SpecSyn.p2 (s : SpecSyn) : Str := optStr (fun sg => [printSign sg]) s.sign ++ SpecSyn.p3 s

theorem SpecSyn.print_eq (s : SpecSyn) : s.print = optStr printFillAlign s.align ++ SpecSyn.p2 s := by
  simp only [SpecSyn.print, SpecSyn.p2, SpecSyn.p3, SpecSyn.p4, SpecSyn.p5, SpecSyn.p6, SpecSyn.p7,
    List.append_assoc]

theorem p7_not_mem (s : SpecSyn) {c : Char} (hc : Outside c) : c ∉ SpecSyn.p7 s := by
  simp only [SpecSyn.p7, List.mem_append, not_or]
  refine ⟨?_, hc.not_ty _⟩
  cases s.attrs with
  | none => simp
  | some a => exact hc.not_attrs a

/-- Not occurring in counts either. -/
def Outside2 (c : Char) : Prop := Outside c ∧ c ∉ ['.', '*', '$']

instance (c : Char) : Decidable (Outside2 c) := inferInstanceAs (Decidable (_ ∧ _))

theorem p6_not_mem (hE : E.Lawful) (s : SpecSyn) (hs : s.Documented E) {c : Char} (hc : Outside2 c) :
    c ∉ SpecSyn.p6 s := by
  have h2 := hc.2
  simp only [List.mem_cons, List.not_mem_nil, or_false, not_or] at h2
  simp only [SpecSyn.p6, List.mem_append, not_or]
  refine ⟨?_, p7_not_mem s hc.1⟩
  cases hp : s.precision with
  | none => simp
  | some p =>
    cases p with
    | count k =>
      simp only [optStr, PrecisionSyn.print, List.mem_cons, not_or]
      exact ⟨h2.1, count_not_mem hE k (hs.2.2.1 _ hp) hc.1.1 h2.2.2⟩
    | star => simp [PrecisionSyn.print, h2]

theorem p5_not_mem (hE : E.Lawful) (s : SpecSyn) (hs : s.Documented E) {c : Char} (hc : Outside2 c) :
    c ∉ SpecSyn.p5 s := by
  have h2 := hc.2
  simp only [List.mem_cons, List.not_mem_nil, or_false, not_or] at h2
  simp only [SpecSyn.p5, List.mem_append, not_or]
  refine ⟨?_, p6_not_mem hE s hs hc⟩
  cases hw : s.width with
  | none => simp
  | some k => exact count_not_mem hE k (hs.1 _ hw) hc.1.1 h2.2.2

theorem p4_not_mem (hE : E.Lawful) (s : SpecSyn) (hs : s.Documented E) {c : Char} (hc : Outside2 c) :
    c ∉ SpecSyn.p4 s := by
  simp only [SpecSyn.p4, List.mem_append, not_or]
  refine ⟨?_, p5_not_mem hE s hs hc⟩
  split
  · simp only [List.mem_singleton]
    rintro rfl
    exact absurd hc.1.1 (by decide)
  · simp

theorem p3_not_mem (hE : E.Lawful) (s : SpecSyn) (hs : s.Documented E) {c : Char} (hc : Outside2 c)
    (h : c ≠ '#') : c ∉ SpecSyn.p3 s := by
  simp only [SpecSyn.p3, List.mem_append, not_or]
  refine ⟨?_, p4_not_mem hE s hs hc⟩
  split <;> simp [h]

theorem p2_not_mem (hE : E.Lawful) (s : SpecSyn) (hs : s.Documented E) {c : Char} (hc : Outside2 c)
    (h : c ∉ ['#', '+', '-']) : c ∉ SpecSyn.p2 s := by
  simp only [List.mem_cons, List.not_mem_nil, or_false, not_or] at h
  simp only [SpecSyn.p2, List.mem_append, not_or]
  refine ⟨?_, p3_not_mem hE s hs hc h.1⟩
  cases s.sign with
  | none => simp [optStr]
  | some sg => cases sg <;> simp [optStr, printSign, h]

/-- A character that does not occur before the closing brace is not first. -/
theorem head_ne {b rest : Str} {c : Char} (h1 : c ∉ b) (h2 : c ≠ '}') :
    ∀ d cs, b ++ '}' :: rest = d :: cs → d ≠ c := by
  rintro d cs h rfl
  cases b with
  | nil => exact h2 ((List.cons.inj h).1).symm
  | cons x xs => exact h1 (by rw [(List.cons.inj h).1]; simp)

theorem not_startsWithAlign {b rest : Str} (h : ∀ c ∈ ['<', '^', '>'], c ∉ b) :
    startsWithAlign (b ++ '}' :: rest) = false := by
  cases b with
  | nil => rfl
  | cons c cs =>
    simp only [List.cons_append, startsWithAlign, List.head?_cons, Bool.or_eq_false_iff,
      decide_eq_false_iff_not]
    refine ⟨⟨?_, ?_⟩, ?_⟩ <;> rintro rfl
    · exact h '<' (by decide) (by simp)
    · exact h '^' (by decide) (by simp)
    · exact h '>' (by decide) (by simp)

theorem p2_noAlign (hE : E.Lawful) (s : SpecSyn) (hs : s.Documented E) :
    ∀ c ∈ ['<', '^', '>'], c ∉ SpecSyn.p2 s := by
  intro c hc
  refine p2_not_mem hE s hs ?_ ?_
  · revert c; decide
  · revert c; decide

/-! ### Type -/

theorem parseTrait_print (t : Ty) (rest : Str) : parseTrait (t.print ++ '}' :: rest) =
    .ok ('}' :: rest) (match t with
      | .display => none
      | t => some (t.debugHex, t.trait)) := by
  cases t <;> rfl

theorem parseTrait_sound {s rest : Str} {o : Option (Option DebugHex × FormatTrait)}
    (h : parseTrait s = .ok rest o) : ∃ t : Ty, s = t.print ++ rest ∧
      o.bind (fun p => p.1) = t.debugHex ∧ (o.map (fun p => p.2)).getD .Display = t.trait := by
  unfold parseTrait at h
  rw [opt_ok_iff] at h
  rcases h with ⟨p, rfl, h⟩ | ⟨rfl, rfl, -⟩
  · simp only [alt_cons, alt_one, orElse_ok_iff, value_ok_iff, tag_ok_iff] at h
    rcases h with ⟨⟨_, h, -⟩, rfl⟩ | ⟨-, ⟨⟨_, h, -⟩, rfl⟩ | ⟨-, ⟨⟨_, h, -⟩, rfl⟩ | ⟨-, ⟨⟨_, h, -⟩, rfl⟩ |
      ⟨-, ⟨⟨_, h, -⟩, rfl⟩ | ⟨-, ⟨⟨_, h, -⟩, rfl⟩ | ⟨-, ⟨⟨_, h, -⟩, rfl⟩ | ⟨-, ⟨⟨_, h, -⟩, rfl⟩ |
      ⟨-, ⟨⟨_, h, -⟩, rfl⟩ | ⟨-, ⟨⟨_, h, -⟩, rfl⟩ | ⟨-, ⟨⟨_, h, -⟩, rfl⟩⟩⟩⟩⟩⟩⟩⟩⟩⟩⟩
    · exact ⟨.debug, h, rfl, rfl⟩
    · exact ⟨.lowerHexDebug, h, rfl, rfl⟩
    · exact ⟨.upperHexDebug, h, rfl, rfl⟩
    · exact ⟨.octal, h, rfl, rfl⟩
    · exact ⟨.lowerHex, h, rfl, rfl⟩
    · exact ⟨.upperHex, h, rfl, rfl⟩
    · exact ⟨.pointer, h, rfl, rfl⟩
    · exact ⟨.binary, h, rfl, rfl⟩
    · exact ⟨.lowerExp, h, rfl, rfl⟩
    · exact ⟨.upperExp, h, rfl, rfl⟩
    · exact ⟨.stylish, h, rfl, rfl⟩
  · exact ⟨.display, rfl, rfl, rfl⟩

/-! ### Specifications -/

theorem parseCount_absent (hE : E.Lawful) (s : SpecSyn) (rest : Str) :
    parseCount E (SpecSyn.p6 s ++ '}' :: rest) = .error := by
  have punct : ∀ (c : Char) (cs : Str), Punct c → parseCount E (c :: cs) = .error := by
    intro c cs hc
    refine parseCount_error ?_
    rintro d ds ⟨⟩
    exact ⟨hc.not_digit, hE.punct_start hc, hc.2.2⟩
  unfold SpecSyn.p6 SpecSyn.p7
  cases s.precision with
  | some p => cases p <;> exact punct _ _ (by decide)
  | none =>
    cases s.attrs with
    | some a => exact punct _ _ (by decide)
    | none =>
      cases s.ty with
      | display => exact punct _ _ (by decide)
      | debug => exact punct _ _ (by decide)
      | lowerHexDebug => exact parseCount_error_letter (by decide) (hE.punct_cont (by decide)) (by decide)
      | upperHexDebug => exact parseCount_error_letter (by decide) (hE.punct_cont (by decide)) (by decide)
      | octal => exact parseCount_error_letter (by decide) (hE.punct_cont (by decide)) (by decide)
      | lowerHex => exact parseCount_error_letter (by decide) (hE.punct_cont (by decide)) (by decide)
      | upperHex => exact parseCount_error_letter (by decide) (hE.punct_cont (by decide)) (by decide)
      | pointer => exact parseCount_error_letter (by decide) (hE.punct_cont (by decide)) (by decide)
      | binary => exact parseCount_error_letter (by decide) (hE.punct_cont (by decide)) (by decide)
      | lowerExp => exact parseCount_error_letter (by decide) (hE.punct_cont (by decide)) (by decide)
      | upperExp => exact parseCount_error_letter (by decide) (hE.punct_cont (by decide)) (by decide)
      | stylish => exact parseCount_error_letter (by decide) (hE.punct_cont (by decide)) (by decide)

theorem countStop_p7 (s : SpecSyn) (rest : Str) : CountStop (SpecSyn.p7 s ++ '}' :: rest) := by
  unfold SpecSyn.p7
  cases s.attrs with
  | some a => rintro c cs ⟨⟩; exact ⟨by decide, by decide⟩
  | none =>
    cases s.ty <;> (rintro c cs ⟨⟩; exact ⟨by decide, by decide⟩)

theorem countStop_p6 (s : SpecSyn) (rest : Str) : CountStop (SpecSyn.p6 s ++ '}' :: rest) := by
  unfold SpecSyn.p6
  cases s.precision with
  | some p => cases p <;> (rintro c cs ⟨⟩; exact ⟨by decide, by decide⟩)
  | none => exact countStop_p7 s rest

theorem p5_head (hE : E.Lawful) (s : SpecSyn) (hd : s.Documented E) (hs : s.Supported E)
    (hz : s.zero = false) (rest : Str) :
    ∀ d cs, SpecSyn.p5 s ++ '}' :: rest = d :: cs → d ≠ '0' := by
  rintro d cs h rfl
  have hp6 : ∀ cs, SpecSyn.p6 s ++ '}' :: rest ≠ '0' :: cs := by
    intro cs e
    have := (countStop_p6 s rest '0' cs e).1
    exact absurd this (by decide)
  unfold SpecSyn.p5 at h
  cases hw : s.width with
  | none => rw [hw] at h; exact hp6 _ h
  | some k =>
    rw [hw] at h
    cases k with
    | lit ds =>
      have h1 := hd.2.1 ds hw hz
      have h2 : Numeral ds := hd.1 _ hw
      cases ds with
      | nil => exact h2.1 rfl
      | cons x xs =>
        have : x = '0' := (List.cons.inj h).1
        exact h1 (by rw [this]; rfl)
    | param r =>
      cases r with
      | index ds =>
        have h1 := hs.2.2.1 ds hw hz
        have h2 : Numeral ds := hd.1 _ hw
        cases ds with
        | nil => exact h2.1 rfl
        | cons x xs =>
          have : x = '0' := (List.cons.inj h).1
          exact h1 (by rw [this]; rfl)
      | name n =>
        obtain ⟨c, cs', hn, h1, -⟩ : Ident E n := hd.1 _ hw
        subst hn
        have : c = '0' := (List.cons.inj h).1
        subst this
        have := hE.start_not_digit h1
        exact absurd this (by decide)

/-- Completeness for specifications. -/
theorem parseFormatSpec_print (hE : E.Lawful) (s : SpecSyn) (hd : s.Documented E) (hs : s.Supported E)
    (rest : Str) (hempty : s.print = [] → startsWithAlign rest = false) :
    parseFormatSpec E (s.print ++ '}' :: rest) = .ok ('}' :: rest) s.toSpec := by
  -- the steps, from the last to the first
  have h9 := parseTrait_print s.ty rest
  have h8 : opt (delimited (tag (str "(")) (cut parseStyleDiff) (tag (str ")")))
      (SpecSyn.p7 s ++ '}' :: rest) =
      .ok (s.ty.print ++ '}' :: rest) (s.attrs.map fun a => attrsDiff a.attrs) := by
    unfold SpecSyn.p7
    cases ha : s.attrs with
    | none =>
      refine opt_none ?_
      unfold delimited
      rw [preceded_error_iff]
      left
      refine tag_char_error (head_ne ?_ (by decide))
      cases s.ty <;> decide
    | some a =>
      obtain ⟨h1, h2⟩ := hs.2.2.2.2 a ha
      refine opt_some ?_
      rw [delimited_ok_iff]
      refine ⟨printAttrs a.attrs ++ (')' :: (s.ty.print ++ '}' :: rest)), str "(",
        ')' :: (s.ty.print ++ '}' :: rest), str ")", ?_, ?_, rfl⟩
      · rw [tag_ok_iff]
        simp only [optStr, AttrsSyn.print, h2, Bool.false_eq_true, if_false, List.append_assoc, and_true,
          List.nil_append]
        rfl
      · rw [cut_ok_iff]
        exact parseStyleDiff_print a.attrs h1 _ (by rintro c cs ⟨⟩; decide)
  have h7 : opt (preceded (tag (str ".")) (parseCount E)) (SpecSyn.p6 s ++ '}' :: rest) =
      .ok (SpecSyn.p7 s ++ '}' :: rest) (s.precision.bind PrecisionSyn.toCount) := by
    unfold SpecSyn.p6
    cases hp : s.precision with
    | none =>
      refine opt_none ?_
      rw [preceded_error_iff]
      left
      exact tag_char_error (head_ne (p7_not_mem s (by decide)) (by decide))
    | some p =>
      obtain ⟨k, rfl, hk⟩ := hs.2.2.2.1 p hp
      refine opt_some ?_
      rw [preceded_ok_iff]
      refine ⟨k.print ++ (SpecSyn.p7 s ++ '}' :: rest), str ".", ?_,
        parseCount_print hE k (hd.2.2.1 _ hp) hk _ (countStop_p7 s rest)⟩
      rw [tag_ok_iff]
      simp only [optStr, PrecisionSyn.print, List.append_assoc, List.cons_append, and_true]
      rfl
  have h6 : opt (parseCount E) (SpecSyn.p5 s ++ '}' :: rest) =
      .ok (SpecSyn.p6 s ++ '}' :: rest) (s.width.map CountSyn.toCount) := by
    unfold SpecSyn.p5
    cases hw : s.width with
    | none => exact opt_none (parseCount_absent hE s rest)
    | some k =>
      refine opt_some ?_
      rw [List.append_assoc]
      exact parseCount_print hE k (hd.1 _ hw) (hs.2.1 _ hw) _ (countStop_p6 s rest)
  have h5 : opt (value true (tag (str "0"))) (SpecSyn.p4 s ++ '}' :: rest) =
      .ok (SpecSyn.p5 s ++ '}' :: rest) (if s.zero then some true else none) := by
    unfold SpecSyn.p4
    cases hz : s.zero with
    | false =>
      refine opt_none ?_
      rw [value_error_iff]
      exact tag_char_error (p5_head hE s hd hs hz rest)
    | true => rfl
  have h4 : opt (value true (tag (str "#"))) (SpecSyn.p3 s ++ '}' :: rest) =
      .ok (SpecSyn.p4 s ++ '}' :: rest) (if s.alternate then some true else none) := by
    unfold SpecSyn.p3
    cases ha : s.alternate with
    | false =>
      refine opt_none ?_
      rw [value_error_iff]
      exact tag_char_error (head_ne (p4_not_mem hE s hd (by decide)) (by decide))
    | true => rfl
  have h3 : opt parseSign (SpecSyn.p2 s ++ '}' :: rest) = .ok (SpecSyn.p3 s ++ '}' :: rest) s.sign := by
    unfold SpecSyn.p2
    cases hsg : s.sign with
    | none =>
      refine opt_none ?_
      simp only [parseSign, alt_cons, alt_one, orElse_error_iff, value_error_iff]
      exact ⟨tag_char_error (head_ne (p3_not_mem hE s hd (by decide) (by decide)) (by decide)),
        tag_char_error (head_ne (p3_not_mem hE s hd (by decide) (by decide)) (by decide))⟩
    | some sg => cases sg <;> rfl
  have h1 : ((parseFillAlign (s.print ++ '}' :: rest)).bind fun input align => checkFill input align) =
      .ok (SpecSyn.p2 s ++ '}' :: rest) (s.align.map Prod.snd) := by
    rw [SpecSyn.print_eq]
    have hp2 := p2_noAlign hE s hd
    rcases ha : s.align with _ | ⟨_ | fill, a⟩
    · show ((parseFillAlign (SpecSyn.p2 s ++ '}' :: rest)).bind _) = _
      rw [fillAlign_none (not_startsWithAlign hp2)]
      · rfl
      · rintro c cs h
        rcases hb : SpecSyn.p2 s with _ | ⟨x, b⟩
        · rw [hb] at h
          obtain ⟨rfl, rfl⟩ := List.cons.inj h
          refine hempty ?_
          rw [SpecSyn.print_eq, ha, hb]
          rfl
        · rw [hb] at h
          obtain ⟨rfl, rfl⟩ := List.cons.inj h
          refine not_startsWithAlign ?_
          intro c hc hm
          exact hp2 c hc (by rw [hb]; simp [hm])
    · have : optStr printFillAlign (some (none, a)) ++ SpecSyn.p2 s ++ '}' :: rest =
        printAlign a :: (SpecSyn.p2 s ++ '}' :: rest) := rfl
      rw [this, fillAlign_align a (not_startsWithAlign hp2)]
      rfl
    · have hf : fill = ' ' := hs.1 fill a ha
      subst hf
      have : optStr printFillAlign (some (some ' ', a)) ++ SpecSyn.p2 s ++ '}' :: rest =
        ' ' :: printAlign a :: (SpecSyn.p2 s ++ '}' :: rest) := rfl
      rw [this, fillAlign_fill]
      rfl
  unfold parseFormatSpec
  rw [bind_ok_iff] at h1 ⊢
  obtain ⟨s1, o, k1, k2⟩ := h1
  refine ⟨s1, o, k1, ?_⟩
  simp only [k2, PRes.bind, h3, h4, h5, h6, h7, h8, h9]
  simp only [PRes.ok.injEq, true_and]
  unfold SpecSyn.toSpec
  congr 1
  · congr 1
    · cases s.alternate <;> rfl
    · cases s.zero <;> rfl
    · cases s.ty <;> rfl
  · cases s.attrs <;> rfl
  · cases s.ty <;> rfl

/-- Soundness for specifications. -/
theorem parseFormatSpec_sound {s rest : Str} {f : FormatSpec} (h : parseFormatSpec E s = .ok rest f) :
    ∃ sp : SpecSyn, s = sp.print ++ rest ∧ f = sp.toSpec ∧ sp.Documented E ∧ sp.Supported E ∧
      (sp.print = [] → ∀ c cs, rest = c :: cs → startsWithAlign cs = false) := by
  unfold parseFormatSpec at h
  rw [bind_ok_iff] at h
  obtain ⟨s1, oFill, h1, h⟩ := h
  rw [bind_ok_iff] at h
  obtain ⟨s2, al, h2, h⟩ := h
  rw [bind_ok_iff] at h
  obtain ⟨s3, sg, h3, h⟩ := h
  rw [bind_ok_iff] at h
  obtain ⟨s4, alt', h4, h⟩ := h
  rw [bind_ok_iff] at h
  obtain ⟨s5, z, h5, h⟩ := h
  rw [bind_ok_iff] at h
  obtain ⟨s6, w, h6, h⟩ := h
  rw [bind_ok_iff] at h
  obtain ⟨s7, pr, h7, h⟩ := h
  rw [bind_ok_iff] at h
  obtain ⟨s8, sty, h8, h⟩ := h
  rw [bind_ok_iff] at h
  obtain ⟨s9, tr, h9, h⟩ := h
  simp only [PRes.ok.injEq] at h
  obtain ⟨rfl, rfl⟩ := h
  -- type
  obtain ⟨ty, rfl, hty1, hty2⟩ := parseTrait_sound h9
  -- attributes
  have k8 : ∃ at' : Option AttrsSyn, s7 = optStr AttrsSyn.print at' ++ (ty.print ++ s9) ∧
      sty.getD .default = (match at' with
        | none => .default
        | some a => attrsDiff a.attrs) ∧
      ∀ a, at' = some a → a.attrs ≠ [] ∧ a.trailingComma = false := by
    rw [opt_ok_iff] at h8
    rcases h8 with ⟨d, rfl, h8⟩ | ⟨rfl, rfl, -⟩
    · rw [delimited_ok_iff] at h8
      obtain ⟨x1, _, x2, _, e1, e2, e3⟩ := h8
      rw [tag_ok_iff] at e1 e3
      rw [cut_ok_iff] at e2
      obtain ⟨as, hne, e4, rfl⟩ := parseStyleDiff_sound e2
      refine ⟨some ⟨as, false⟩, ?_, rfl, ?_⟩
      · rw [e1.1, e4, e3.1]
        simp only [optStr, AttrsSyn.print, Bool.false_eq_true, if_false, List.append_assoc, List.nil_append]
        rfl
      · rintro a ⟨⟩
        exact ⟨hne, rfl⟩
    · exact ⟨none, rfl, rfl, by simp⟩
  obtain ⟨at', hs7, hat1, hat2⟩ := k8
  -- precision
  have k7 : ∃ p : Option CountSyn, s6 = optStr (fun k => '.' :: CountSyn.print k) p ++ s7 ∧ pr = p.map CountSyn.toCount ∧
      ∀ k, p = some k → k.Documented E ∧ k.Supported E := by
    rw [opt_ok_iff] at h7
    rcases h7 with ⟨d, rfl, h7⟩ | ⟨rfl, rfl, -⟩
    · rw [preceded_ok_iff] at h7
      obtain ⟨x1, _, e1, e2⟩ := h7
      rw [tag_ok_iff] at e1
      obtain ⟨k, rfl, rfl, g1, g2⟩ := parseCount_sound e2
      refine ⟨some k, ?_, rfl, ?_⟩
      · rw [e1.1]; rfl
      · rintro _ ⟨⟩; exact ⟨g1, g2⟩
    · exact ⟨none, rfl, rfl, by simp⟩
  obtain ⟨p, hs6, rfl, hp⟩ := k7
  -- width
  have k6 : ∃ k : Option CountSyn, s5 = optStr CountSyn.print k ++ s6 ∧ w = k.map CountSyn.toCount ∧
      ∀ x, k = some x → x.Documented E ∧ x.Supported E := by
    rw [opt_ok_iff] at h6
    rcases h6 with ⟨d, rfl, h6⟩ | ⟨rfl, rfl, -⟩
    · obtain ⟨k, rfl, rfl, g1, g2⟩ := parseCount_sound h6
      exact ⟨some k, rfl, rfl, by rintro _ ⟨⟩; exact ⟨g1, g2⟩⟩
    · exact ⟨none, rfl, rfl, by simp⟩
  obtain ⟨k, hs5, rfl, hk⟩ := k6
  -- zero
  have k5 : s4 = (if z.getD false then ['0'] else []) ++ s5 ∧
      (z.getD false = false → ∀ d cs, s5 = d :: cs → d ≠ '0') := by
    rw [opt_ok_iff] at h5
    simp only [value_ok_iff, tag_ok_iff, value_error_iff, tag_error_iff] at h5
    rcases h5 with ⟨d, rfl, ⟨_, e, -⟩, rfl⟩ | ⟨rfl, rfl, e⟩
    · exact ⟨e, by simp⟩
    · refine ⟨rfl, ?_⟩
      rintro - d cs rfl rfl
      exact e ⟨cs, rfl⟩
  obtain ⟨rfl, hz⟩ := k5
  -- alternate
  have k4 : s3 = (if alt'.getD false then ['#'] else []) ++ ((if z.getD false then ['0'] else []) ++ s5) := by
    rw [opt_ok_iff] at h4
    simp only [value_ok_iff, tag_ok_iff] at h4
    rcases h4 with ⟨d, rfl, ⟨_, e, -⟩, rfl⟩ | ⟨rfl, e, -⟩
    · exact e
    · exact e.symm
  subst k4
  -- sign
  have k3 : s2 = optStr (fun sg => [printSign sg]) sg ++ ((if alt'.getD false then ['#'] else []) ++
        ((if z.getD false then ['0'] else []) ++ s5)) := by
    rw [opt_ok_iff] at h3
    simp only [parseSign, alt_cons, alt_one, orElse_ok_iff, value_ok_iff, tag_ok_iff] at h3
    rcases h3 with ⟨d, rfl, ⟨⟨_, e, -⟩, rfl⟩ | ⟨-, ⟨_, e, -⟩, rfl⟩⟩ | ⟨rfl, e, -⟩
    · exact e
    · exact e
    · exact e.symm
  -- alignment
  have k1 : ∃ o : Option (Option Char × Align), s = optStr printFillAlign o ++ s2 ∧ al = o.map Prod.snd ∧
      (∀ fill a, o = some (some fill, a) → fill = ' ') ∧
      (o = none → ∀ c cs, s = c :: cs → startsWithAlign cs = false) := by
    rcases fillAlign_sound h1 with ⟨rfl, rfl, e1, e2⟩ | ⟨a, rfl, rfl⟩ | ⟨c, a, rfl, rfl⟩
    · simp only [checkFill, PRes.ok.injEq] at h2
      obtain ⟨rfl, rfl⟩ := h2
      exact ⟨none, rfl, rfl, by simp, fun _ => e2⟩
    · simp only [checkFill, ne_eq, not_true_eq_false, if_false, PRes.ok.injEq] at h2
      obtain ⟨rfl, rfl⟩ := h2
      exact ⟨some (none, a), rfl, rfl, by simp, by simp⟩
    · simp only [checkFill] at h2
      split at h2
      · cases h2
      · rename_i hc
        simp only [PRes.ok.injEq] at h2
        obtain ⟨rfl, rfl⟩ := h2
        refine ⟨some (some c, a), rfl, rfl, ?_, by simp⟩
        rintro fill a' ⟨⟩
        simpa using hc
  obtain ⟨o, hs, rfl, ho1, ho2⟩ := k1
  refine ⟨⟨o, sg, alt'.getD false, z.getD false, k, p.map .count, at', ty⟩, ?_, ?_, ?_, ?_, ?_⟩
  · rw [hs, k3, hs5, hs6, hs7]
    simp only [SpecSyn.print, List.append_assoc]
    cases p <;> rfl
  · simp only [SpecSyn.toSpec, hty1, hty2, hat1]
    cases p <;> rfl
  · refine ⟨fun c hc => (hk c hc).1, ?_, ?_, ?_⟩
    · rintro ds (rfl : k = _) hzf hd
      have hn : Numeral ds := (hk _ rfl).1
      cases ds with
      | nil => exact hn.1 rfl
      | cons d ds => exact hz hzf d _ hs5 (by simpa using hd)
    · rintro q hq
      cases p with
      | none => simp at hq
      | some c => obtain rfl := Option.some.inj hq; exact (hp c rfl).1
    · rintro a ha
      have := (hat2 a ha).2
      intro h; rw [this] at h; cases h
  · refine ⟨ho1, fun c hc => (hk c hc).2, ?_, ?_, hat2⟩
    · rintro ds (rfl : k = _) hzf hd
      have hn : Numeral ds := (hk _ rfl).1
      cases ds with
      | nil => exact hn.1 rfl
      | cons d ds => exact hz hzf d _ hs5 (by simpa using hd)
    · rintro q hq
      cases p with
      | none => simp at hq
      | some c => obtain rfl := Option.some.inj hq; exact ⟨c, rfl, (hp c rfl).2⟩
  · intro hempty c cs hrest
    have e : s = s9 := by
      have : s = SpecSyn.print ⟨o, sg, alt'.getD false, z.getD false, k, p.map .count, at', ty⟩ ++ s9 := by
        rw [hs, k3, hs5, hs6, hs7]
        simp only [SpecSyn.print, List.append_assoc]
        cases p <;> rfl
      rw [hempty] at this
      exact this
    refine ho2 ?_ c cs (by rw [e]; exact hrest)
    cases o with
    | none => rfl
    | some x =>
      exfalso
      rw [SpecSyn.print_eq] at hempty
      obtain ⟨_ | f, a⟩ := x <;> simp [printFillAlign] at hempty

/-! ### Pieces -/

theorem parseLit_text {s rest : Str} (hne : s ≠ []) (h1 : '{' ∉ s) (h2 : '}' ∉ s)
    (hr : ∀ c cs, rest = c :: cs → c = '{' ∨ c = '}') : parseLit (s ++ rest) = .ok rest (.Lit s) := by
  simp only [parseLit, alt_cons, alt_one, orElse_ok_iff]
  left
  rw [map_ok_iff]
  refine ⟨s, ?_, rfl⟩
  have hs : ∀ d ∈ s, (!(str "{}").contains d) = true := by
    intro d hd
    have e1 : d ≠ '{' := by rintro rfl; exact h1 hd
    have e2 : d ≠ '}' := by rintro rfl; exact h2 hd
    simp [show str "{}" = ['{', '}'] from rfl, e1, e2]
  have hr' : ∀ c cs, rest = c :: cs → (!(str "{}").contains c) = false := by
    intro c cs h
    rcases hr c cs h with rfl | rfl <;> rfl
  cases s with
  | nil => exact absurd rfl hne
  | cons c cs =>
    obtain ⟨e1, e2⟩ := takeWhile_append_stop (fun d hd => hs d (by simp [hd])) hr' (ds := cs)
    refine recognize_of (a := c :: cs) ?_
    have hc : satisfy (fun c => !(str "{}").contains c) (c :: cs ++ rest) = .ok (cs ++ rest) c := by
      rw [satisfy_ok_iff]
      exact ⟨rfl, hs c (by simp)⟩
    simp only [many1, noneOf, hc, PRes.bind]
    rw [many0Loop_satisfy _ _ _ (by omega), e1, e2]

theorem parseLit_sound {s rest : Str} {p : Piece} (h : parseLit s = .ok rest p) :
    (∃ t, s = t ++ rest ∧ p = .Lit t ∧ t ≠ [] ∧ '{' ∉ t ∧ '}' ∉ t ∧
      ∀ c cs, rest = c :: cs → c = '{' ∨ c = '}') ∨
    (s = '{' :: '{' :: rest ∧ p = .Lit ['{']) ∨ (s = '}' :: '}' :: rest ∧ p = .Lit ['}']) := by
  simp only [parseLit, alt_cons, alt_one, orElse_ok_iff, map_ok_iff, value_ok_iff, tag_ok_iff] at h
  rcases h with ⟨t, h, rfl⟩ | ⟨-, ⟨⟨_, h, -⟩, rfl⟩ | ⟨-, ⟨_, h, -⟩, rfl⟩⟩
  · left
    cases s with
    | nil => simp [recognize, many1, noneOf, satisfy, PRes.bind] at h
    | cons c cs =>
      by_cases hc : (!(str "{}").contains c) = true
      · have e1 : satisfy (fun c => !(str "{}").contains c) (c :: cs) = .ok cs c := by
          rw [satisfy_ok_iff]; exact ⟨rfl, hc⟩
        have e2 : many1 (noneOf (str "{}")) (c :: cs) =
            .ok (cs.dropWhile (fun c => !(str "{}").contains c))
              (c :: cs.takeWhile (fun c => !(str "{}").contains c)) := by
          simp only [many1, noneOf, e1, PRes.bind]
          rw [many0Loop_satisfy _ _ _ (by omega)]
        have e3 : c :: cs = (c :: cs.takeWhile (fun c => !(str "{}").contains c)) ++
            cs.dropWhile (fun c => !(str "{}").contains c) := by
          simp [List.takeWhile_append_dropWhile]
        have e4 : recognize (many1 (noneOf (str "{}"))) (c :: cs) =
            .ok (cs.dropWhile (fun c => !(str "{}").contains c))
              (c :: cs.takeWhile (fun c => !(str "{}").contains c)) := by
          rw [e3] at e2 ⊢
          exact recognize_of e2
        rw [e4] at h
        obtain ⟨rfl, rfl⟩ := PRes.ok.inj h
        have hall : ∀ d ∈ c :: cs.takeWhile (fun c => !(str "{}").contains c),
            (!(str "{}").contains d) = true := by
          intro d hd
          rcases List.mem_cons.1 hd with rfl | hd
          · exact hc
          · exact all_takeWhile _ _ d hd
        refine ⟨_, e3, rfl, by simp, ?_, ?_, ?_⟩
        · intro hm; exact absurd (hall _ hm) (by decide)
        · intro hm; exact absurd (hall _ hm) (by decide)
        · intro d ds hd
          have := head_dropWhile _ _ d ds hd
          by_cases h1 : d = '{'
          · exact Or.inl h1
          · by_cases h2 : d = '}'
            · exact Or.inr h2
            · simp [show str "{}" = ['{', '}'] from rfl, h1, h2] at this
      · simp only [recognize, many1, noneOf, satisfy, if_neg hc, PRes.bind] at h
        cases h
  · exact Or.inr (Or.inl ⟨h, rfl⟩)
  · exact Or.inr (Or.inr ⟨h, rfl⟩)

theorem ref_head (hE : E.Lawful) (r : ArgRef) (hd : r.Documented E) :
    ∃ c cs, r.print = c :: cs ∧ c ≠ '{' ∧ c ≠ ':' ∧ c ≠ '}' := by
  have h : ∀ {c}, Punct c → c ∉ r.print := fun hc => ref_not_mem hE r hd hc
  rcases hp : r.print with _ | ⟨c, cs⟩
  · cases r with
    | index ds => exact absurd hp hd.1
    | name n =>
      obtain ⟨c, cs, rfl, -⟩ := hd
      cases hp
  · rw [hp] at h
    refine ⟨c, cs, rfl, ?_, ?_, ?_⟩ <;> rintro rfl
    · exact h (c := '{') (by decide) (by simp)
    · exact h (c := ':') (by decide) (by simp)
    · exact h (c := '}') (by decide) (by simp)

theorem refStop_punct (hE : E.Lawful) (r : ArgRef) {c : Char} (hc : Punct c) (cs : Str) :
    RefStop E r (c :: cs) := by
  cases r with
  | index ds => rintro d ds ⟨⟩; exact hc.not_digit
  | name n => rintro d ds ⟨⟩; exact hE.punct_cont hc

/-- Completeness for the inside of a placeholder. -/
theorem parseFormatArg_print (hE : E.Lawful) (ref : Option ArgRef) (spec : Option SpecSyn)
    (hd : (PieceSyn.arg ref spec).Documented E) (hs : (PieceSyn.arg ref spec).Supported E) (rest : Str)
    (hempty : (PieceSyn.arg ref spec).emptySpec = true → startsWithAlign rest = false) :
    parseFormatArg E (optStr ArgRef.print ref ++ optStr (fun s => ':' :: SpecSyn.print s) spec ++
      '}' :: rest) = .ok ('}' :: rest)
      { arg := ref.map ArgRef.toRef
        formatSpec := match spec with
          | none => .default
          | some s => s.toSpec } := by
  have h1 : opt (parseFormatArgRef E) (optStr ArgRef.print ref ++
      optStr (fun s => ':' :: SpecSyn.print s) spec ++ '}' :: rest) =
      .ok (optStr (fun s => ':' :: SpecSyn.print s) spec ++ '}' :: rest) (ref.map ArgRef.toRef) := by
    cases ref with
    | none =>
      refine opt_none (parseFormatArgRef_error ?_)
      intro c cs h
      have hp : Punct c := by
        cases spec with
        | none => cases h; decide
        | some s => cases h; decide
      exact ⟨hp.not_digit, hE.punct_start hp, hp.2.2⟩
    | some r =>
      refine opt_some ?_
      rw [List.append_assoc]
      refine parseFormatArgRef_print hE r (hd.1 r rfl) (hs.1 r rfl) _ ?_
      cases spec with
      | none => exact refStop_punct hE r (c := '}') (by decide) _
      | some s => exact refStop_punct hE r (c := ':') (by decide) _
  have h2 : opt (preceded (tag (str ":")) (parseFormatSpec E))
      (optStr (fun s => ':' :: SpecSyn.print s) spec ++ '}' :: rest) =
      .ok ('}' :: rest) (spec.map SpecSyn.toSpec) := by
    cases spec with
    | none =>
      refine opt_none ?_
      rw [preceded_error_iff]
      left
      exact tag_char_error (by rintro d cs ⟨⟩; decide)
    | some s =>
      refine opt_some ?_
      rw [preceded_ok_iff]
      refine ⟨s.print ++ '}' :: rest, str ":", by rw [tag_ok_iff]; exact ⟨rfl, rfl⟩, ?_⟩
      refine parseFormatSpec_print hE s (hd.2 s rfl) (hs.2 s rfl) rest ?_
      intro h
      exact hempty (by simp [PieceSyn.emptySpec, h])
  unfold parseFormatArg
  rw [h1]
  simp only [PRes.bind, h2]
  cases spec <;> rfl

theorem parseFormatArg_sound {s rest : Str} {a : FormatArg} (h : parseFormatArg E s = .ok rest a) :
    ∃ ref spec, s = optStr ArgRef.print ref ++ optStr (fun s => ':' :: SpecSyn.print s) spec ++ rest ∧
      Piece.Arg a = (PieceSyn.arg ref spec).toPiece ∧
      (PieceSyn.arg ref spec).Documented E ∧ (PieceSyn.arg ref spec).Supported E ∧
      ((PieceSyn.arg ref spec).emptySpec = true → ∀ c cs, rest = c :: cs → startsWithAlign cs = false) := by
  unfold parseFormatArg at h
  rw [bind_ok_iff] at h
  obtain ⟨s1, o, h1, h⟩ := h
  rw [bind_ok_iff] at h
  obtain ⟨s2, fs, h2, h⟩ := h
  simp only [PRes.ok.injEq] at h
  obtain ⟨rfl, rfl⟩ := h
  have k1 : ∃ ref : Option ArgRef, s = optStr ArgRef.print ref ++ s1 ∧ o = ref.map ArgRef.toRef ∧
      ∀ r, ref = some r → r.Documented E ∧ r.Supported E := by
    rw [opt_ok_iff] at h1
    rcases h1 with ⟨f, rfl, h1⟩ | ⟨rfl, rfl, -⟩
    · obtain ⟨r, rfl, rfl, g1, g2⟩ := parseFormatArgRef_sound h1
      exact ⟨some r, rfl, rfl, by rintro _ ⟨⟩; exact ⟨g1, g2⟩⟩
    · exact ⟨none, rfl, rfl, by simp⟩
  obtain ⟨ref, hs, rfl, hr⟩ := k1
  rw [opt_ok_iff] at h2
  rcases h2 with ⟨f, rfl, h2⟩ | ⟨rfl, rfl, -⟩
  · rw [preceded_ok_iff] at h2
    obtain ⟨s3, _, h3, h4⟩ := h2
    rw [tag_ok_iff] at h3
    obtain ⟨sp, rfl, rfl, g1, g2, g3⟩ := parseFormatSpec_sound h4
    refine ⟨ref, some sp, ?_, rfl, ⟨fun r h => (hr r h).1, ?_⟩, ⟨fun r h => (hr r h).2, ?_⟩, ?_⟩
    · rw [hs, h3.1, List.append_assoc]; rfl
    · rintro _ ⟨⟩; exact g1
    · rintro _ ⟨⟩; exact g2
    · intro h; exact g3 (by simpa [PieceSyn.emptySpec] using h)
  · refine ⟨ref, none, ?_, rfl, ⟨fun r h => (hr r h).1, by simp⟩, ⟨fun r h => (hr r h).2, by simp⟩, ?_⟩
    · rw [hs]; simp
    · simp [PieceSyn.emptySpec]

/-- Completeness for one piece. -/
theorem parsePiece_print (hE : E.Lawful) (q : PieceSyn) (hd : q.Documented E) (hs : q.Supported E)
    (rest : Str) (htext : q.isText = true → ∀ c cs, rest = c :: cs → c = '{' ∨ c = '}')
    (hempty : q.emptySpec = true → startsWithAlign rest = false) :
    parsePiece E (q.print ++ rest) = .ok rest q.toPiece := by
  simp only [parsePiece, alt_cons, alt_one, orElse_ok_iff]
  cases q with
  | text s => left; exact parseLit_text hd.1 hd.2.1 hd.2.2 (htext rfl)
  | openBrace => left; rfl
  | closeBrace => left; rfl
  | arg ref spec =>
    right
    have e : (PieceSyn.arg ref spec).print ++ rest = '{' :: (optStr ArgRef.print ref ++
        optStr (fun s => ':' :: SpecSyn.print s) spec ++ '}' :: rest) := by
      simp [PieceSyn.print]
    have hhead : ∀ cs, optStr ArgRef.print ref ++
        optStr (fun s => ':' :: SpecSyn.print s) spec ++ '}' :: rest ≠ '{' :: cs := by
      intro cs h
      cases ref with
      | none => cases spec <;> cases h
      | some r =>
        obtain ⟨c, cs', hp, hc, -⟩ := ref_head hE r (hd.1 r rfl)
        simp only [optStr, hp] at h
        exact hc (List.cons.inj h).1
    rw [e]
    constructor
    · simp only [parseLit, alt_cons, alt_one, orElse_error_iff, map_error_iff, value_error_iff,
        tag_error_iff]
      refine ⟨rfl, ?_, ?_⟩
      · rintro ⟨r, hr⟩
        exact hhead r ((List.cons.inj hr).2).symm
      · rintro ⟨r, hr⟩
        have := (List.cons.inj hr).1
        revert this; decide
    · unfold parseArg
      rw [map_ok_iff]
      refine ⟨_, ?_, rfl⟩
      rw [delimited_ok_iff]
      refine ⟨optStr ArgRef.print ref ++ optStr (fun s => ':' :: SpecSyn.print s) spec ++ '}' :: rest,
        str "{", '}' :: rest, str "}", by rw [tag_ok_iff]; exact ⟨rfl, rfl⟩,
        cut_ok ((parseFormatArg_print hE ref spec hd hs rest hempty).trans (by cases spec <;> rfl)), by rw [tag_ok_iff]; exact ⟨rfl, rfl⟩⟩

theorem parsePiece_sound {s rest : Str} {p : Piece} (h : parsePiece E s = .ok rest p) :
    ∃ q : PieceSyn, s = q.print ++ rest ∧ p = q.toPiece ∧ q.Documented E ∧ q.Supported E ∧
      (q.isText = true → ∀ c cs, rest = c :: cs → c = '{' ∨ c = '}') ∧
      (q.emptySpec = true → startsWithAlign rest = false) := by
  simp only [parsePiece, alt_cons, alt_one, orElse_ok_iff] at h
  rcases h with h | ⟨-, h⟩
  · rcases parseLit_sound h with ⟨t, rfl, rfl, h1, h2, h3, h4⟩ | ⟨rfl, rfl⟩ | ⟨rfl, rfl⟩
    · exact ⟨.text t, rfl, rfl, ⟨h1, h2, h3⟩, trivial, fun _ => h4, by simp [PieceSyn.emptySpec]⟩
    · exact ⟨.openBrace, rfl, rfl, trivial, trivial, by simp [PieceSyn.isText],
        by simp [PieceSyn.emptySpec]⟩
    · exact ⟨.closeBrace, rfl, rfl, trivial, trivial, by simp [PieceSyn.isText],
        by simp [PieceSyn.emptySpec]⟩
  · unfold parseArg at h
    rw [map_ok_iff] at h
    obtain ⟨a, h, rfl⟩ := h
    rw [delimited_ok_iff] at h
    obtain ⟨s1, _, s2, _, h1, h2, h3⟩ := h
    rw [tag_ok_iff] at h1 h3
    rw [cut_ok_iff] at h2
    obtain ⟨ref, spec, g1, g2, g3, g4, g5⟩ := parseFormatArg_sound h2
    refine ⟨.arg ref spec, ?_, g2, g3, g4, by simp [PieceSyn.isText], ?_⟩
    · rw [h1.1, g1, h3.1]
      simp only [PieceSyn.print, List.append_assoc]
      rfl
    · intro h
      exact g5 h '}' rest h3.1

/-! ### Whole format strings -/

theorem piece_print_ne (q : PieceSyn) (hd : q.Documented E) : q.print ≠ [] := by
  cases q with
  | text s => exact hd.1
  | openBrace => simp [PieceSyn.print]
  | closeBrace => simp [PieceSyn.print]
  | arg ref spec => simp [PieceSyn.print]

theorem piece_head (q : PieceSyn) (hd : q.Documented E) (s : Str) :
    ∀ c cs, q.print ++ s = c :: cs → (q.isText = true ↔ c ≠ '{' ∧ c ≠ '}') := by
  intro c cs h
  cases q with
  | text t =>
    obtain ⟨h1, h2, h3⟩ := hd
    cases t with
    | nil => exact absurd rfl h1
    | cons x xs =>
      obtain rfl : x = c := (List.cons.inj h).1
      simp only [List.mem_cons, not_or] at h2 h3
      simp [PieceSyn.isText, Ne.symm h2.1, Ne.symm h3.1]
  | openBrace => obtain rfl := (List.cons.inj h).1; simp [PieceSyn.isText]
  | closeBrace => obtain rfl := (List.cons.inj h).1; simp [PieceSyn.isText]
  | arg ref spec =>
    have : c = '{' := by
      have h' : '{' :: _ = c :: cs := h
      exact ((List.cons.inj h').1).symm
    simp [PieceSyn.isText, this]

theorem many0Loop_print (hE : E.Lawful) (t : List PieceSyn) (hd : Documented E t) (hs : Supported E t)
    (fuel : Nat) (hf : (print t).length < fuel) :
    many0Loop (parsePiece E) fuel (print t) = .ok [] (t.map PieceSyn.toPiece) := by
  induction t generalizing fuel with
  | nil =>
    cases fuel with
    | zero => simp at hf
    | succ fuel => rfl
  | cons q t ih =>
    cases fuel with
    | zero => simp at hf
    | succ fuel =>
      have hq := hd.1 q (by simp)
      have hd' : Documented E t := by
        refine ⟨fun p hp => hd.1 p (by simp [hp]), ?_⟩
        cases t with
        | nil => trivial
        | cons r t => exact hd.2.2
      have hs' : Supported E t := ⟨fun p hp => hs.1 p (by simp [hp]), hs.2.2⟩
      have hlen : 0 < q.print.length := List.length_pos_iff.2 (piece_print_ne q hq)
      have hl : (print (q :: t)).length = q.print.length + (print t).length := by simp [print]
      have e : print (q :: t) = q.print ++ print t := by simp [print]
      have hp := parsePiece_print hE q hq (hs.1 q (by simp)) (print t) (by
        intro ht c cs h
        cases t with
        | nil => simp [print] at h
        | cons r t =>
          have hr := hd.2.1 ht
          have h2 := piece_head r (hd.1 r (by simp)) (print t) c cs (by rw [← h]; simp [print])
          by_cases h3 : c = '{'
          · exact Or.inl h3
          · by_cases h4 : c = '}'
            · exact Or.inr h4
            · have := h2.2 ⟨h3, h4⟩
              rw [hr] at this; cases this) hs.2.1
      have := ih hd' hs' fuel (by omega)
      unfold many0Loop
      rw [e, hp]
      simp only [this]
      rw [if_neg (by simp only [List.length_append]; omega)]
      rfl

theorem many0Loop_sound (fuel : Nat) {s : Str} {ps : List Piece}
    (h : many0Loop (parsePiece E) fuel s = .ok [] ps) :
    ∃ t, s = print t ∧ ps = t.map PieceSyn.toPiece ∧ Documented E t ∧ Supported E t := by
  induction fuel generalizing s ps with
  | zero => simp [many0Loop] at h
  | succ fuel ih =>
    unfold many0Loop at h
    rcases hp : parsePiece E s with ⟨rest, p⟩ | _ | _ | _
    · rw [hp] at h
      simp only at h
      split at h
      · cases h
      · rcases hl : many0Loop (parsePiece E) fuel rest with ⟨r2, ps2⟩ | _ | _ | _
        · rw [hl] at h
          simp only [PRes.ok.injEq] at h
          obtain ⟨rfl, rfl⟩ := h
          obtain ⟨t, rfl, rfl, hd, hs⟩ := ih hl
          obtain ⟨q, rfl, rfl, g1, g2, g3, g4⟩ := parsePiece_sound hp
          refine ⟨q :: t, by simp [print], rfl, ⟨?_, ?_⟩, ⟨?_, ⟨g4, hs.2⟩⟩⟩
          · intro p hp
            rcases List.mem_cons.1 hp with rfl | hp
            · exact g1
            · exact hd.1 p hp
          · cases t with
            | nil => trivial
            | cons r t =>
              refine ⟨fun ht => ?_, hd.2⟩
              have hr := hd.1 r (by simp)
              rcases hx : r.print with _ | ⟨c, cs⟩
              · exact absurd hx (piece_print_ne r hr)
              · have e : print (r :: t) = c :: (cs ++ print t) := by simp [print, hx]
                have h1 := g3 ht c _ e
                have h2 := piece_head r hr (print t) c _ (by rw [hx]; rfl)
                cases hir : r.isText with
                | false => rfl
                | true =>
                  have := h2.1 hir
                  rcases h1 with rfl | rfl
                  · exact absurd rfl this.1
                  · exact absurd rfl this.2
          · intro p hp
            rcases List.mem_cons.1 hp with rfl | hp
            · exact g2
            · exact hs.1 p hp
        all_goals rw [hl] at h; cases h
    · rw [hp] at h
      simp only [PRes.ok.injEq] at h
      obtain ⟨rfl, rfl⟩ := h
      exact ⟨[], rfl, rfl, ⟨by simp, trivial⟩, ⟨by simp, trivial⟩⟩
    · rw [hp] at h; cases h
    · rw [hp] at h; cases h

/-- The parser accepts exactly the strings of the supported documented trees. -/
theorem parseFormat_iff (hE : E.Lawful) (s rest : Str) (ps : List Piece) :
    parseFormat E s = .ok rest ps ↔ rest = [] ∧
      ∃ t, print t = s ∧ t.map PieceSyn.toPiece = ps ∧ Documented E t ∧ Supported E t := by
  unfold parseFormat allConsuming many0
  constructor
  · intro h
    split at h
    · rename_i as hl
      obtain ⟨rfl, rfl⟩ := PRes.ok.inj h
      obtain ⟨t, rfl, rfl, hd, hs⟩ := many0Loop_sound _ hl
      exact ⟨rfl, t, rfl, rfl, hd, hs⟩
    · cases h
    · rename_i h1 h2
      cases hm : many0Loop (parsePiece E) (s.length + 1) s with
      | ok r as =>
        cases r with
        | nil => exact absurd hm (h1 as)
        | cons c cs => exact absurd hm (h2 c cs as)
      | _ => rw [hm] at h; cases h
  · rintro ⟨rfl, t, rfl, rfl, hd, hs⟩
    rw [many0Loop_print hE t hd hs _ (by omega)]

end Stylish
