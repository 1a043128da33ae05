import Verif.Spec.Recompose
import Verif.Props.Browser
import Verif.Props.Lines
/-
C113: outputs that are normalised.
-/

namespace Stylish.Props

open Spec

variable {T : Type} [FmtWrite T]

/-! ## C113 -/

namespace Recompose
variable (N : Recomposer)

def Ascii (s : Str) : Prop := ∀ c ∈ s, c.toNat < 128

/-- Empty, or begins with a character that does not join what stands before it. -/
def Begins (s : Str) : Prop := ∀ c r, s = c :: r → N.starts c = true

variable {N}

theorem nf_append (a b : Str) (hb : Begins N b) : N.nf (a ++ b) = N.nf a ++ N.nf b := by
  cases b with
  | nil => rw [(N.empty []).2 rfl, List.append_nil, List.append_nil]
  | cons c r => exact N.cut a c r (hb c r rfl)

theorem begins_ascii {s : Str} (h : Ascii s) : Begins N s := by
  rintro c r rfl
  exact N.ascii_starts c (h c (by simp))

theorem begins_append {a b : Str} (ha : Begins N a) (hb : Begins N b) : Begins N (a ++ b) := by
  cases a with
  | nil => exact hb
  | cons x a => rintro c r h; exact ha c a (by simp only [List.cons_append, List.cons.injEq] at h; rw [h.1])

theorem nf_ascii {s : Str} (h : Ascii s) : N.nf s = s := by
  induction s with
  | nil => exact (N.empty []).2 rfl
  | cons c s ih =>
    have h1 : Ascii s := fun d hd => h d (by simp [hd])
    rw [show c :: s = [c] ++ s from rfl, nf_append _ _ (begins_ascii h1), N.ascii c (h c (by simp)), ih h1]

/-- A writer whose markup is ASCII and whose texts stay apart from it. -/
theorem render (sw : Style → Style → Str) (enc : Char → Str) (hself : ∀ a, sw a a = []) (hsw : ∀ a b, Ascii (sw a b))
    (tail : Str) (ht : Ascii tail) (chs : List Chunk)
    (h1 : ∀ s st, (s, st) ∈ chs → Begins N (s.flatMap enc))
    (h2 : ∀ s st, (s, st) ∈ chs → N.nf (s.flatMap enc) = (N.nf s).flatMap enc) : ∀ cur,
    Begins N (renderWith sw enc cur (flatten chs) ++ tail) ∧
    N.nf (renderWith sw enc cur (flatten chs) ++ tail) = renderWith sw enc cur (flatten (N.writes chs)) ++ tail ∧
    lastStyle cur (flatten (N.writes chs)) = lastStyle cur (flatten chs) := by
  induction chs with
  | nil => exact fun _ => ⟨begins_ascii ht, nf_ascii ht, rfl⟩
  | cons ch chs ih =>
    intro cur
    obtain ⟨s, st⟩ := ch
    have e1 : flatten ((s, st) :: chs) = paint s st ++ flatten chs := rfl
    have e2 : flatten (N.writes ((s, st) :: chs)) = paint (N.nf s) st ++ flatten (N.writes chs) := rfl
    have e3 : (N.nf s).isEmpty = s.isEmpty := by
      cases hs : s with
      | nil => rw [(N.empty []).2 rfl]
      | cons c r =>
        cases hn : N.nf (c :: r) with
        | nil => exact absurd ((N.empty _).1 hn) (by simp)
        | cons _ _ => rfl
    rw [e1, e2, renderWith_append, renderWith_append, renderWith_paint _ _ hself, renderWith_paint _ _ hself, lastStyle_append,
      lastStyle_append, lastStyle_paint, lastStyle_paint, e3]
    obtain ⟨i1, i2, i3⟩ := ih (fun s st h => h1 s st (by simp [h])) (fun s st h => h2 s st (by simp [h]))
      (if s.isEmpty = true then cur else st)
    have b1 := h1 s st (by simp)
    by_cases hs : s.isEmpty = true
    · simp only [if_pos hs, List.nil_append] at i1 i2 i3 ⊢
      exact ⟨i1, i2, i3⟩
    · simp only [if_neg hs] at i1 i2 i3 ⊢
      refine ⟨?_, ?_, i3⟩
      · rw [List.append_assoc]
        exact begins_append (begins_append (begins_ascii (hsw _ _)) b1) i1
      · rw [List.append_assoc, nf_append _ _ i1, nf_append _ _ b1, nf_ascii (hsw _ _), i2, h2 s st (by simp)]
        simp only [List.append_assoc]

theorem ansi_ascii (a b : Style) : Ascii (ansiSwitch a b) := by
  intro c hc
  have := ansiSwitch_marks a b c hc
  simp only [ansiMark, Bool.or_eq_true, decide_eq_true_eq] at this
  rcases this with (((h | h) | h) | h) | h
  · subst h; decide
  · subst h; decide
  · have : c ≤ '9' := by simp [Char.isDigit] at h; exact h.2
    have h' : c.toNat ≤ '9'.toNat := this
    have : '9'.toNat = 57 := by decide
    omega
  · subst h; decide
  · subst h; decide

theorem html_ascii (a b : Style) : Ascii (htmlSwitch a b) := by
  intro c hc
  have := htmlSwitch_printable a b c hc
  simp only [printable, Bool.and_eq_true, decide_eq_true_eq] at this
  omega

theorem enc_special (c : Char) (h : c ∈ markupChars) : Ascii (htmlEnc c) := by
  simp only [markupChars, List.mem_cons, List.not_mem_nil, or_false] at h
  rcases h with rfl | rfl | rfl | rfl | rfl
  · show ∀ c ∈ str "&lt;", _; decide
  · show ∀ c ∈ str "&gt;", _; decide
  · show ∀ c ∈ str "&amp;", _; decide
  · show ∀ c ∈ str "&quot;", _; decide
  · show ∀ c ∈ str "&#x27;", _; decide

theorem enc_other (c : Char) (h : c ∉ markupChars) : htmlEnc c = [c] := by
  simp only [markupChars, List.mem_cons, List.not_mem_nil, or_false, not_or] at h
  simp [htmlEnc, htmlEntity, h.1, h.2.1, h.2.2.1, h.2.2.2.1, h.2.2.2.2]

theorem enc_none (s : Str) (h : ∀ c ∈ s, c ∉ markupChars) : s.flatMap htmlEnc = s := by
  induction s with
  | nil => rfl
  | cons c s ih =>
    rw [List.flatMap_cons, enc_other c (h c (by simp)), ih (fun d hd => h d (by simp [hd]))]
    rfl

theorem begins_enc {s : Str} (h : Begins N s) : Begins N (s.flatMap htmlEnc) := by
  cases s with
  | nil => rintro c r h; cases h
  | cons c s =>
    rw [List.flatMap_cons]
    by_cases hc : c ∈ markupChars
    · have ha := enc_special c hc
      cases he : htmlEnc c with
      | nil =>
        simp only [markupChars, List.mem_cons, List.not_mem_nil, or_false] at hc
        rcases hc with rfl | rfl | rfl | rfl | rfl <;> simp [htmlEnc, htmlEntity, str] at he
      | cons x y =>
        rw [he] at ha
        rintro d r hd
        simp only [List.cons_append, List.cons.injEq] at hd
        rw [← hd.1]
        exact N.ascii_starts _ (ha x (by simp))
    · rw [enc_other c hc]
      rintro d r hd
      simp only [List.cons_append, List.cons.injEq] at hd
      rw [← hd.1]
      exact h c s rfl

theorem first_special (s : Str) : (∀ c ∈ s, c ∉ markupChars) ∨
    ∃ a c b, s = a ++ c :: b ∧ (∀ d ∈ a, d ∉ markupChars) ∧ c ∈ markupChars := by
  induction s with
  | nil => exact .inl (by simp)
  | cons x s ih =>
    by_cases hx : x ∈ markupChars
    · exact .inr ⟨[], x, s, rfl, by simp, hx⟩
    · rcases ih with h | ⟨a, c, b, rfl, h1, h2⟩
      · refine .inl fun c hc => ?_
        rcases List.mem_cons.1 hc with rfl | hc
        · exact hx
        · exact h c hc
      · refine .inr ⟨x :: a, c, b, rfl, fun d hd => ?_, h2⟩
        rcases List.mem_cons.1 hd with rfl | hd
        · exact hx
        · exact h1 d hd

theorem nf_none (s : Str) (h : ∀ c ∈ s, c ∉ markupChars) : ∀ c ∈ N.nf s, c ∉ markupChars :=
  fun c hc hm => h c (N.nothing_new s c hm hc) hm

theorem nf_enc (n : Nat) : ∀ s : Str, s.length ≤ n →
    (∀ a c d r, s = a ++ c :: d :: r → c ∈ markupChars → N.starts d = true) →
    N.nf (s.flatMap htmlEnc) = (N.nf s).flatMap htmlEnc := by
  induction n with
  | zero =>
    intro s hs _
    obtain rfl : s = [] := List.length_eq_zero_iff.1 (by omega)
    rw [List.flatMap_nil, (N.empty []).2 rfl]; rfl
  | succ n ih =>
    intro s hs hap
    rcases first_special s with h | ⟨a, c, b, rfl, h1, h2⟩
    · rw [enc_none s h, enc_none _ (nf_none s h)]
    · have hb : Begins N b := by
        rintro d r rfl
        exact hap a c d r rfl h2
      have hasc : c.toNat < 128 := by
        simp only [markupChars, List.mem_cons, List.not_mem_nil, or_false] at h2
        rcases h2 with rfl | rfl | rfl | rfl | rfl <;> decide
      have hbe := ih b (by simp at hs; omega) (fun a' c' d' r' e hc' => hap (a ++ c :: a') c' d' r' (by simp [e]) hc')
      have e1 : N.nf (a ++ c :: b) = N.nf a ++ ([c] ++ N.nf b) := by
        rw [N.cut a c b (N.ascii_starts c hasc), show c :: b = [c] ++ b from rfl, nf_append _ _ hb, N.ascii c hasc]
      rw [e1, List.flatMap_append, List.flatMap_append, List.flatMap_append, enc_none a h1, enc_none _ (nf_none a h1), List.flatMap_cons,
        nf_append _ _ (begins_append (begins_ascii (enc_special c h2)) (begins_enc hb)), nf_append _ _ (begins_enc hb),
        nf_ascii (enc_special c h2), hbe]
      simp

end Recompose

/-- C113: if no text that is written begins with a character that would join what stands before it (as a combining accent
does), then normalising the output of `Ansi` gives the output of the same writes with each text normalised. -/
theorem C113_ansi (N : Recomposer) (k : FmtSink T) (t : T) (chs : List Chunk) (hw : N.Whole chs) (out : Str) :
    (AnsiWrote k t chs out → AnsiWrote stringSink StdString.new (N.writes chs) (N.nf out)) ∧
    (AnsiFinished k t chs out → AnsiFinished stringSink StdString.new (N.writes chs) (N.nf out)) := by
  have e : ∀ w : Str, w.flatMap plainEnc = w := fun w => by
    show w.flatMap (fun c => [c]) = w
    simp
  have h1 : ∀ s st, (s, st) ∈ chs → Recompose.Begins N (s.flatMap plainEnc) := fun s st h => by rw [e]; exact hw s st h
  have h2 : ∀ s st, (s, st) ∈ chs → N.nf (s.flatMap plainEnc) = (N.nf s).flatMap plainEnc := fun s st _ => by rw [e, e]
  have hx := ansiFinished_exists stringSink stringSink_accepting StdString.new (N.writes chs)
  constructor
  · intro h
    have key := (Recompose.render ansiSwitch plainEnc ansiSwitch_self Recompose.ansi_ascii [] (fun c hc => by cases hc) chs h1 h2
      Style.default).2.1
    rw [List.append_nil, List.append_nil] at key
    rw [ansiWrote_eq k t chs out h, key]
    exact hx.1
  · intro h
    obtain ⟨-, key, hl⟩ := Recompose.render ansiSwitch plainEnc ansiSwitch_self Recompose.ansi_ascii
      (ansiSwitch (lastStyle Style.default (flatten chs)) Style.default) (Recompose.ansi_ascii _ _) chs h1 h2 Style.default
    rw [ansiFinished_eq k t chs out h, ansiRender, key, ← hl]
    exact hx.2

/-- C113 for `Html`, if nor does such a character come right after one that is escaped. -/
theorem C113_html (N : Recomposer) (k : FmtSink T) (t : T) (chs : List Chunk) (hw : N.Whole chs) (ha : N.Apart chs) (out : Str) :
    (HtmlWrote k t chs out → HtmlWrote stringSink StdString.new (N.writes chs) (N.nf out)) ∧
    (HtmlFinished k t chs out → HtmlFinished stringSink StdString.new (N.writes chs) (N.nf out)) := by
  have h1 : ∀ s st, (s, st) ∈ chs → Recompose.Begins N (s.flatMap htmlEnc) := fun s st h =>
    Recompose.begins_enc (hw s st h)
  have h2 : ∀ s st, (s, st) ∈ chs → N.nf (s.flatMap htmlEnc) = (N.nf s).flatMap htmlEnc := fun s st h =>
    Recompose.nf_enc s.length s (Nat.le_refl _) (ha s st h)
  have hx := htmlFinished_exists stringSink stringSink_accepting StdString.new (N.writes chs)
  constructor
  · intro h
    have key := (Recompose.render htmlSwitch htmlEnc htmlSwitch_self Recompose.html_ascii [] (fun c hc => by cases hc) chs h1 h2
      Style.default).2.1
    rw [List.append_nil, List.append_nil] at key
    rw [htmlWrote_eq k t chs out h, key]
    exact hx.1
  · intro h
    obtain ⟨-, key, hl⟩ := Recompose.render htmlSwitch htmlEnc htmlSwitch_self Recompose.html_ascii
      (htmlSwitch (lastStyle Style.default (flatten chs)) Style.default) (Recompose.html_ascii _ _) chs h1 h2 Style.default
    rw [htmlFinished_eq k t chs out h, htmlRender, key, ← hl]
    exact hx.2

/-- C113: what is written in normal form comes out in normal form. -/
theorem C113_already (N : Recomposer) (k : FmtSink T) (t : T) (chs : List Chunk) (hw : N.Whole chs)
    (hn : ∀ s st, (s, st) ∈ chs → N.nf s = s) (out : Str) :
    (AnsiWrote k t chs out ∨ AnsiFinished k t chs out → N.nf out = out) ∧
    (N.Apart chs → HtmlWrote k t chs out ∨ HtmlFinished k t chs out → N.nf out = out) := by
  have e : N.writes chs = chs := by
    unfold Recomposer.writes
    conv => rhs; rw [← List.map_id chs]
    refine List.map_congr_left fun ch hc => ?_
    obtain ⟨s, st⟩ := ch
    show (N.nf s, st) = (s, st)
    rw [hn s st hc]
  constructor
  · rintro (h | h)
    · have := (C113_ansi N k t chs hw out).1 h
      rw [e] at this
      rw [ansiWrote_eq _ _ _ _ this, ansiWrote_eq _ _ _ _ h]
    · have := (C113_ansi N k t chs hw out).2 h
      rw [e] at this
      rw [ansiFinished_eq _ _ _ _ this, ansiFinished_eq _ _ _ _ h]
  · rintro ha (h | h)
    · have := (C113_html N k t chs hw ha out).1 h
      rw [e] at this
      rw [htmlWrote_eq _ _ _ _ this, htmlWrote_eq _ _ _ _ h]
    · have := (C113_html N k t chs hw ha out).2 h
      rw [e] at this
      rw [htmlFinished_eq _ _ _ _ this, htmlFinished_eq _ _ _ _ h]

/-! ### Samples -/

/-- Three of the pairs of characters that Unicode composes. -/
def pair : Char → Char → Option Char
  | 'e', '\u0301' => some 'é'
  | 'm', '\u0301' => some 'ḿ'
  | '>', '\u0338' => some '≯'
  | _, _ => none

def compose : Str → Str
  | [] => []
  | [c] => [c]
  | c :: d :: r =>
    match pair c d with
    | some x => x :: compose r
    | none => c :: compose (d :: r)

theorem pair_none (c d : Char) (h : d ≠ '\u0301' ∧ d ≠ '\u0338') : pair c d = none := by
  unfold pair
  split
  · exact absurd rfl h.1
  · exact absurd rfl h.1
  · exact absurd rfl h.2
  · rfl

theorem compose_cut (a : Str) (c : Char) (b : Str) (h : c ≠ '\u0301' ∧ c ≠ '\u0338') :
    compose (a ++ c :: b) = compose a ++ compose (c :: b) := by
  fun_induction compose a with
  | case1 => rfl
  | case2 x => rw [List.singleton_append, compose, pair_none x c h]; rfl
  | case3 x d r y hy ih => rw [List.cons_append, List.cons_append, compose, hy]; simp [ih]
  | case4 x d r hy ih => rw [List.cons_append, List.cons_append, compose, hy]; simpa using ih

theorem compose_mem (s : Str) : ∀ c ∈ compose s, c ∈ s ∨ c ∈ ['é', 'ḿ', '≯'] := by
  fun_induction compose s with
  | case1 => intro c hc; cases hc
  | case2 x => exact fun c hc => .inl hc
  | case3 x d r y hy ih =>
    intro c hc
    rcases List.mem_cons.1 hc with rfl | hc
    · right
      unfold pair at hy
      split at hy <;> simp at hy <;> subst hy <;> decide
    · rcases ih c hc with h | h
      · exact .inl (by simp [h])
      · exact .inr h
  | case4 x d r hy ih =>
    intro c hc
    rcases List.mem_cons.1 hc with rfl | hc
    · exact .inl (by simp)
    · rcases ih c hc with h | h
      · exact .inl (List.mem_cons_of_mem _ h)
      · exact .inr h

/-- It obeys the laws. -/
def composer : Recomposer where
  nf := compose
  starts c := decide (c ≠ '\u0301' ∧ c ≠ '\u0338')
  empty s := by
    constructor
    · intro h
      unfold compose at h
      split at h
      · rfl
      · cases h
      · split at h <;> cases h
    · rintro rfl; rfl
  ascii_starts c hc := by
    rw [decide_eq_true_eq]
    constructor <;> rintro rfl <;> revert hc <;> decide
  ascii c _ := rfl
  cut a c b h := compose_cut a c b (by simpa using h)
  nothing_new s c hc h := by
    rcases compose_mem s c h with h | h
    · exact h
    · exfalso
      simp only [List.mem_cons, List.not_mem_nil, or_false] at h
      rcases h with rfl | rfl | rfl <;> revert hc <;> decide

/-- `cafe` with an accent of its own, in red, then `!`. -/
def accentSample : List Chunk :=
  [(['R', '&', 'D', ':', ' '], Style.default), (['c', 'a', 'f', 'e', '\u0301'], ⟨.Red, .Default, .Normal⟩), (['!'], Style.default)]

/-- The conditions are met, and the accent joins its letter. -/
example : composer.Whole accentSample ∧ composer.Apart accentSample ∧
    composer.writes accentSample = [(str "R&D: ", Style.default), (str "café", ⟨.Red, .Default, .Normal⟩), (str "!", Style.default)] ∧
    composer.nf (ansiRender (flatten accentSample)) = str "R&D: \x1b[31mcafé\x1b[0m!" ∧
    composer.nf (htmlRender (flatten accentSample)) = str "R&amp;D: <span style=color:red>café</span>!" := by
  refine ⟨?_, ?_, by decide +kernel, by decide +kernel, by decide +kernel⟩
  · intro s st h c r e
    simp only [accentSample, List.mem_cons, List.not_mem_nil, or_false, Prod.mk.injEq] at h
    rcases h with ⟨rfl, -⟩ | ⟨rfl, -⟩ | ⟨rfl, -⟩
    all_goals
      have := congrArg List.head? e
      simp [str] at this
      subst this
      decide
  · intro s st h a c d r e hc
    have hd : d ∈ s := by rw [e]; simp
    by_cases hs : d = '\u0301'
    · exfalso
      subst hs
      simp only [accentSample, List.mem_cons, List.not_mem_nil, or_false, Prod.mk.injEq] at h
      have hcs : c ∈ s := by rw [e]; simp
      rcases h with ⟨rfl, -⟩ | ⟨rfl, -⟩ | ⟨rfl, -⟩
      · revert hd; decide +kernel
      · revert hcs hc
        simp only [markupChars, List.mem_cons, List.not_mem_nil, or_false]
        intro h1 h2
        rcases h2 with rfl | rfl | rfl | rfl | rfl <;> exact absurd h1 (by decide +kernel)
      · revert hd; decide +kernel
    · simp only [accentSample, List.mem_cons, List.not_mem_nil, or_false, Prod.mk.injEq] at h
      show decide _ = true
      rw [decide_eq_true_eq]
      refine ⟨hs, ?_⟩
      rintro rfl
      rcases h with ⟨rfl, -⟩ | ⟨rfl, -⟩ | ⟨rfl, -⟩ <;> revert hd <;> decide +kernel

/-- C113: the condition is needed. If the letter and its accent are written in two styles, or text in a style begins with an
overlay, then it joins the last character of the markup, the `m` of the escape sequence or the `>` of the tag, which is one no
more: with the escape sequences taken out another text is left, and the HTML cannot be read. -/
theorem C113_accent_counterexample :
    let red : Style := ⟨.Red, .Default, .Normal⟩
    (∃ out, AnsiFinished stringSink StdString.new [(['e'], Style.default), (['\u0301'], red)] out ∧
      composer.nf out = str "e\x1b[31ḿ\x1b[0m" ∧ stripSgr (composer.nf out) ≠ stripSgr out) ∧
    (∃ out, HtmlFinished stringSink StdString.new [(['='], Style.default), (['\u0338'], red)] out ∧
      composer.nf out = str "=<span style=color:red≯</span>" ∧ HtmlReader.read (composer.nf out) = none) := by
  intro red
  exact ⟨⟨_, (ansiFinished_exists stringSink stringSink_accepting StdString.new _).2, by decide +kernel, by decide +kernel⟩,
    ⟨_, (htmlFinished_exists stringSink stringSink_accepting StdString.new _).2, by decide +kernel, by decide +kernel⟩⟩

end Stylish.Props
