import Verif.Lemmas.Nom
import Verif.Spec.Grammar
/-
The parser accepts exactly the supported documented trees: soundness and completeness, parser by parser.
-/

namespace Stylish

open Nom Format Spec.Syntax

variable {E : Env}

/-! ### Characters -/

theorem Env.Lawful.start_not (hE : E.Lawful) {c : Char} (h : c.toNat < 128) (h2 : c.isAlpha = false) :
    E.xidStart c = false := by rw [hE.start_ascii c h, h2]

theorem Env.Lawful.cont_not (hE : E.Lawful) {c : Char} (h : c.toNat < 128) (h2 : c.isAlphanum = false)
    (h3 : c ≠ '_') : E.xidContinue c = false := by
  rw [hE.continue_ascii c h, h2]; simpa using h3

theorem isDigit_ascii {c : Char} (h : c.isDigit = true) : c.toNat < 128 ∧ c.isAlpha = false := by
  simp only [Char.isDigit, Bool.and_eq_true, decide_eq_true_eq, UInt32.le_iff_toNat_le] at h
  have e1 : ('0' : Char).val.toNat = 48 := rfl
  have e2 : ('9' : Char).val.toNat = 57 := rfl
  have e3 : c.toNat = c.val.toNat := rfl
  refine ⟨by rw [e3]; omega, ?_⟩
  simp only [Char.isAlpha, Char.isUpper, Char.isLower, Bool.or_eq_false_iff, Bool.and_eq_false_iff,
    decide_eq_false_iff_not, UInt32.le_iff_toNat_le]
  have e4 : ('A' : Char).val.toNat = 65 := rfl
  have e5 : ('a' : Char).val.toNat = 97 := rfl
  omega

/-- The first character of an identifier is not a digit. -/
theorem Env.Lawful.start_not_digit (hE : E.Lawful) {c : Char} (h : E.xidStart c = true ∨ c = '_') :
    c.isDigit = false := by
  rcases h with h | rfl
  · cases hd : c.isDigit with
    | false => rfl
    | true =>
      obtain ⟨h1, h2⟩ := isDigit_ascii hd
      rw [hE.start_not h1 h2] at h
      cases h
  · rfl

/-- ASCII punctuation is not part of an identifier. -/
def Punct (c : Char) : Prop := c.toNat < 128 ∧ c.isAlphanum = false ∧ c ≠ '_'

instance (c : Char) : Decidable (Punct c) := inferInstanceAs (Decidable (_ ∧ _ ∧ _))

theorem Punct.not_alpha {c : Char} (h : Punct c) : c.isAlpha = false := by
  have := h.2.1
  simp only [Char.isAlphanum, Bool.or_eq_false_iff] at this
  exact this.1

theorem Punct.not_digit {c : Char} (h : Punct c) : c.isDigit = false := by
  have := h.2.1
  simp only [Char.isAlphanum, Bool.or_eq_false_iff] at this
  exact this.2

theorem Env.Lawful.punct_cont (hE : E.Lawful) {c : Char} (h : Punct c) : E.xidContinue c = false :=
  hE.cont_not h.1 h.2.1 h.2.2

theorem Env.Lawful.punct_start (hE : E.Lawful) {c : Char} (h : Punct c) : E.xidStart c = false :=
  hE.start_not h.1 h.not_alpha

theorem Env.Lawful.ident_ne (hE : E.Lawful) {n : Str} (hn : Ident E n) {c : Char} (hc : Punct c) :
    c ∉ n := by
  obtain ⟨d, ds, rfl, h1, h2⟩ := hn
  intro hm
  rcases List.mem_cons.1 hm with rfl | hm
  · rcases h1 with h1 | rfl
    · rw [hE.punct_start hc] at h1; cases h1
    · exact hc.2.2 rfl
  · have := h2 c hm
    rw [hE.punct_cont hc] at this; cases this

theorem numeral_ne {n : Str} (hn : Numeral n) {c : Char} (hc : Punct c) : c ∉ n := by
  intro hm
  have := hn.2 c hm
  rw [hc.not_digit] at this; cases this

/-! ### Colours and attributes -/

theorem parseColor_print (c : ColorName) (rest : Str) :
    parseColor (c.print ++ rest) = .ok rest c.color := by
  cases c <;> rfl

theorem parseColor_sound {s rest : Str} {c : Color} (h : parseColor s = .ok rest c) :
    ∃ n : ColorName, s = n.print ++ rest ∧ c = n.color := by
  simp only [parseColor, alt_cons, alt_one, orElse_ok_iff, value_ok_iff, tag_ok_iff] at h
  rcases h with ⟨⟨_, h, -⟩, rfl⟩ | ⟨-, ⟨⟨_, h, -⟩, rfl⟩ | ⟨-, ⟨⟨_, h, -⟩, rfl⟩ | ⟨-, ⟨⟨_, h, -⟩, rfl⟩ |
    ⟨-, ⟨⟨_, h, -⟩, rfl⟩ | ⟨-, ⟨⟨_, h, -⟩, rfl⟩ | ⟨-, ⟨⟨_, h, -⟩, rfl⟩ | ⟨-, ⟨⟨_, h, -⟩, rfl⟩ |
    ⟨-, ⟨⟨_, h, -⟩, rfl⟩⟩⟩⟩⟩⟩⟩⟩⟩
  · exact ⟨.black, h, rfl⟩
  · exact ⟨.red, h, rfl⟩
  · exact ⟨.green, h, rfl⟩
  · exact ⟨.yellow, h, rfl⟩
  · exact ⟨.blue, h, rfl⟩
  · exact ⟨.magenta, h, rfl⟩
  · exact ⟨.cyan, h, rfl⟩
  · exact ⟨.white, h, rfl⟩
  · exact ⟨.default, h, rfl⟩

/-- The restyling of an attribute. -/
def Spec.Syntax.Attr.boxed : Attr → Boxed DynRestyle
  | .fg c => ⟨.of (Foreground.mk c.color)⟩
  | .bg c => ⟨.of (Background.mk c.color)⟩
  | .normal => ⟨.of Intensity.Normal⟩
  | .bold => ⟨.of Intensity.Bold⟩
  | .faint => ⟨.of Intensity.Faint⟩

theorem parseRestyle_print (a : Attr) (rest : Str) :
    parseRestyle (a.print ++ rest) = .ok rest a.boxed := by
  cases a with
  | fg c => cases c <;> rfl
  | bg c => cases c <;> rfl
  | normal => rfl
  | bold => rfl
  | faint => rfl

theorem parseRestyle_sound {s rest : Str} {b : Boxed DynRestyle} (h : parseRestyle s = .ok rest b) :
    ∃ a : Attr, s = a.print ++ rest ∧ b = a.boxed := by
  simp only [parseRestyle, parseIntensity, alt_cons, alt_one, orElse_ok_iff, value_ok_iff, tag_ok_iff,
    map_ok_iff, preceded_ok_iff, cut_ok_iff] at h
  rcases h with ⟨c, ⟨s1, _, ⟨h1, -⟩, s2, _, ⟨h2, -⟩, h3⟩, rfl⟩ |
    ⟨-, ⟨c, ⟨s1, _, ⟨h1, -⟩, s2, _, ⟨h2, -⟩, h3⟩, rfl⟩ | ⟨-, i, h, rfl⟩⟩
  · obtain ⟨n, rfl, rfl⟩ := parseColor_sound h3
    exact ⟨.fg n, by rw [h1, h2]; rfl, rfl⟩
  · obtain ⟨n, rfl, rfl⟩ := parseColor_sound h3
    exact ⟨.bg n, by rw [h1, h2]; rfl, rfl⟩
  · rcases h with ⟨⟨_, h, -⟩, rfl⟩ | ⟨-, ⟨⟨_, h, -⟩, rfl⟩ | ⟨-, ⟨⟨_, h, -⟩, rfl⟩⟩⟩
    · exact ⟨.normal, h, rfl⟩
    · exact ⟨.bold, h, rfl⟩
    · exact ⟨.faint, h, rfl⟩

theorem separatedLoop_print (as : List Attr) (fuel : Nat) (rest : Str)
    (hr : ∀ c cs, rest = c :: cs → c ≠ ',') (h : as.length < fuel) :
    separatedLoop (tag (str ",")) (cut parseRestyle) fuel
      (as.flatMap (fun a => ',' :: a.print) ++ rest) = .ok rest (as.map Attr.boxed) := by
  induction as generalizing fuel with
  | nil =>
    cases fuel with
    | zero => simp at h
    | succ fuel =>
      have : tag (str ",") rest = .error := by
        rw [tag_error_iff]
        rintro ⟨r, hr'⟩
        exact hr ',' r (by rw [← hr']; rfl) rfl
      simp [separatedLoop, this]
  | cons a as ih =>
    cases fuel with
    | zero => simp at h
    | succ fuel =>
      have e1 : tag (str ",") ((a :: as).flatMap (fun a => ',' :: a.print) ++ rest) =
          .ok (a.print ++ (as.flatMap (fun a => ',' :: a.print) ++ rest)) (str ",") := by
        rw [tag_ok_iff]
        simp only [List.flatMap_cons, List.append_assoc, List.cons_append, and_true]
        rfl
      have e2 := cut_ok (parseRestyle_print a (as.flatMap (fun a => ',' :: a.print) ++ rest))
      have e3 := ih fuel (by simpa using h)
      unfold separatedLoop
      rw [e1]
      simp only [e2, e3]
      simp

theorem separatedLoop_sound (fuel : Nat) {s rest : Str} {bs : List (Boxed DynRestyle)}
    (h : separatedLoop (tag (str ",")) (cut parseRestyle) fuel s = .ok rest bs) :
    ∃ as : List Attr, s = as.flatMap (fun a => ',' :: a.print) ++ rest ∧ bs = as.map Attr.boxed := by
  induction fuel generalizing s rest bs with
  | zero => simp [separatedLoop] at h
  | succ fuel ih =>
    unfold separatedLoop at h
    rcases tag_cases (str ",") s with ⟨r, hs, ht⟩ | ht
    · rw [ht] at h
      simp only at h
      split at h
      · cases h
      · rcases hp : cut parseRestyle r with ⟨s2, b⟩ | _ | _ | _
        · rw [hp] at h
          simp only at h
          obtain ⟨a, rfl, rfl⟩ := parseRestyle_sound ((cut_ok_iff _ _ _ _).1 hp)
          rcases hl : separatedLoop (tag (str ",")) (cut parseRestyle) fuel s2 with ⟨s3, cs⟩ | _ | _ | _
          · rw [hl] at h
            simp only [PRes.ok.injEq] at h
            obtain ⟨rfl, rfl⟩ := h
            obtain ⟨as, rfl, rfl⟩ := ih hl
            exact ⟨a :: as, by rw [hs]; simp only [List.flatMap_cons, List.append_assoc, List.cons_append]; rfl, rfl⟩
          all_goals rw [hl] at h; cases h
        · exact absurd hp (cut_ne_error _ _)
        · rw [hp] at h; cases h
        · rw [hp] at h; cases h
    · rw [ht] at h
      simp only [PRes.ok.injEq] at h
      obtain ⟨rfl, rfl⟩ := h
      exact ⟨[], rfl, rfl⟩

theorem with_boxed (as : List Attr) (s : Style) :
    (s.with (as.map Attr.boxed)).foreground = ((as.filterMap Attr.fg?).getLast?).getD s.foreground ∧
    (s.with (as.map Attr.boxed)).background = ((as.filterMap Attr.bg?).getLast?).getD s.background ∧
    (s.with (as.map Attr.boxed)).intensity =
      ((as.filterMap Attr.intensity?).getLast?).getD s.intensity := by
  have comp : ∀ (as bs : List (Boxed DynRestyle)) (s : Style),
      s.with (as ++ bs) = (s.with as).with bs := by
    intro as
    induction as with
    | nil => intro bs s; rfl
    | cons a as ih => intro bs s; exact ih bs _
  generalize hm : as.reverse = m
  have hl : as = m.reverse := by simp [← hm]
  subst hl
  clear hm
  induction m with
  | nil => exact ⟨rfl, rfl, rfl⟩
  | cons x m ih =>
    obtain ⟨h1, h2, h3⟩ := ih
    simp only [List.reverse_cons, List.map_append, comp, List.filterMap_append]
    generalize hs : s.with (m.reverse.map Attr.boxed) = s' at h1 h2 h3
    cases x <;>
      simp [Attr.boxed, Attr.fg?, Attr.bg?, Attr.intensity?, Style.with, Restyle.apply, restyleSlice,
        DynRestyle.of] at h1 h2 h3 ⊢ <;> simp [h1, h2, h3]

theorem diffField_getD {T : Type} [DecidableEq T] (d : T) (o : Option T) :
    diffField d (o.getD d) = o.filter (fun x => decide (x ≠ d)) := by
  cases o with
  | none => simp [diffField]
  | some x =>
    by_cases h : x = d
    · subst h; simp [diffField, Option.filter]
    · simp [diffField, Option.filter, h, Ne.symm h]

theorem diff_boxed (as : List Attr) :
    (Style.default.with (as.map Attr.boxed)).diffFrom Style.default = attrsDiff as := by
  obtain ⟨h1, h2, h3⟩ := with_boxed as Style.default
  unfold Style.diffFrom attrsDiff
  rw [h1, h2, h3]
  simp only [diffField_getD]
  rfl

theorem parseStyleDiff_print (as : List Attr) (hne : as ≠ []) (rest : Str)
    (hr : ∀ c cs, rest = c :: cs → c ≠ ',') :
    parseStyleDiff (printAttrs as ++ rest) = .ok rest (attrsDiff as) := by
  cases as with
  | nil => exact absurd rfl hne
  | cons a as =>
    have e1 := cut_ok (parseRestyle_print a (as.flatMap (fun a => ',' :: a.print) ++ rest))
    have hlen : as.length ≤ (as.flatMap (fun a => ',' :: a.print)).length := by
      induction as with
      | nil => simp
      | cons b bs ih => simp only [List.flatMap_cons, List.length_append, List.length_cons]
                        have := ih (by simp) (cut_ok (parseRestyle_print a _)); omega
    have e2 := separatedLoop_print as ((as.flatMap (fun a => ',' :: a.print) ++ rest).length + 1) rest hr
      (by simp only [List.length_append]; omega)
    have : printAttrs (a :: as) ++ rest =
        a.print ++ (as.flatMap (fun a => ',' :: a.print) ++ rest) := by simp [printAttrs]
    rw [this]
    unfold parseStyleDiff
    rw [map_ok_iff]
    refine ⟨(a :: as).map Attr.boxed, ?_, diff_boxed _⟩
    unfold separatedList0
    simp only [e1, e2]
    rfl

theorem parseStyleDiff_sound {s rest : Str} {d : StyleDiff} (h : parseStyleDiff s = .ok rest d) :
    ∃ as : List Attr, as ≠ [] ∧ s = printAttrs as ++ rest ∧ d = attrsDiff as := by
  unfold parseStyleDiff at h
  rw [map_ok_iff] at h
  obtain ⟨bs, h, rfl⟩ := h
  unfold separatedList0 at h
  rcases hp : cut parseRestyle s with ⟨s1, b⟩ | _ | _ | _
  · rw [hp] at h
    simp only at h
    obtain ⟨a, rfl, rfl⟩ := parseRestyle_sound ((cut_ok_iff _ _ _ _).1 hp)
    rcases hl : separatedLoop (tag (str ",")) (cut parseRestyle) (s1.length + 1) s1 with ⟨s3, cs⟩ | _ | _ | _
    · rw [hl] at h
      simp only [PRes.ok.injEq] at h
      obtain ⟨rfl, rfl⟩ := h
      obtain ⟨as, rfl, rfl⟩ := separatedLoop_sound _ hl
      exact ⟨a :: as, by simp, by simp [printAttrs], diff_boxed (a :: as)⟩
    all_goals rw [hl] at h; cases h
  · exact absurd hp (cut_ne_error _ _)
  · rw [hp] at h; cases h
  · rw [hp] at h; cases h

/-! ### References and counts -/

theorem identifier_eq (c : Char) (cs : Str) :
    identifier E (c :: cs) = if E.xidStart c = true ∨ c = '_' then
      .ok (cs.dropWhile E.xidContinue) (c :: cs.takeWhile E.xidContinue) else .error := by
  have key : E.xidStart c = true ∨ c = '_' →
      pair (alt [satisfy E.xidStart, char '_']) (many0 (satisfy E.xidContinue)) (c :: cs) =
      .ok (cs.dropWhile E.xidContinue) (c, cs.takeWhile E.xidContinue) := by
    intro h
    have : alt [satisfy E.xidStart, char '_'] (c :: cs) = .ok cs c := by
      simp only [alt_cons, alt_one, orElse_ok_iff, satisfy_ok_iff, char]
      by_cases hx : E.xidStart c = true
      · exact Or.inl ⟨trivial, hx⟩
      · refine Or.inr ⟨?_, trivial, by simpa using h.resolve_left hx⟩
        simp [satisfy, hx]
    simp [pair, this, PRes.bind, many0_satisfy]
  split
  · rename_i h
    have e : c :: cs = (c :: cs.takeWhile E.xidContinue) ++ cs.dropWhile E.xidContinue := by
      simp [List.takeWhile_append_dropWhile]
    have k := key h
    unfold identifier
    rw [e] at k ⊢
    exact recognize_of k
  · rename_i h
    have : pair (alt [satisfy E.xidStart, char '_']) (many0 (satisfy E.xidContinue)) (c :: cs) =
        .error := by
      rw [pair_error_iff]
      left
      simp only [alt_cons, alt_one, orElse_error_iff, char]
      have h1 : E.xidStart c = false := by
        cases hx : E.xidStart c with
        | false => rfl
        | true => exact absurd (Or.inl hx) h
      have h2 : c ≠ '_' := fun hc => h (Or.inr hc)
      simp [satisfy, h1, h2]
    simp [identifier, recognize, this]

theorem identifier_nil : identifier E [] = .error := rfl

theorem digit1_digits {ds rest : Str} (hd : Numeral ds) (hr : ∀ c cs, rest = c :: cs → c.isDigit = false) :
    digit1 (ds ++ rest) = .ok rest ds := by
  obtain ⟨h1, h2⟩ := takeWhile_append_stop hd.2 hr
  unfold digit1
  rw [h1, h2]
  cases ds with
  | nil => exact absurd rfl hd.1
  | cons d ds => rfl

theorem digit1_error {s : Str} (h : ∀ c cs, s = c :: cs → c.isDigit = false) : digit1 s = .error := by
  obtain ⟨h1, h2⟩ := dropWhile_of_head h
  unfold digit1
  rw [h2]

theorem digit1_sound {s rest ds : Str} (h : digit1 s = .ok rest ds) :
    s = ds ++ rest ∧ Numeral ds ∧ ∀ c cs, rest = c :: cs → c.isDigit = false := by
  unfold digit1 at h
  split at h
  · cases h
  · rename_i hne
    obtain ⟨rfl, rfl⟩ := PRes.ok.inj h
    exact ⟨List.takeWhile_append_dropWhile.symm, ⟨hne, all_takeWhile _ _⟩, head_dropWhile _ _⟩

/-- What must not follow a reference. -/
def RefStop (E : Env) (r : ArgRef) (rest : Str) : Prop :=
  match r with
  | .index _ => ∀ c cs, rest = c :: cs → c.isDigit = false
  | .name _ => ∀ c cs, rest = c :: cs → E.xidContinue c = false

theorem parseInt_digits {ds rest : Str} (hd : Numeral ds) (hv : numeralValue ds ≤ E.usizeMax)
    (hr : ∀ c cs, rest = c :: cs → c.isDigit = false) :
    mapRes digit1 (usizeFromStr E) (ds ++ rest) = .ok rest (numeralValue ds) := by
  rw [mapRes_ok_iff]
  have : digitsVal ds = numeralValue ds := rfl
  exact ⟨ds, digit1_digits hd hr, by simp [usizeFromStr, this, hv]⟩

theorem parseInt_error {s : Str} (h : ∀ c cs, s = c :: cs → c.isDigit = false) :
    mapRes digit1 (usizeFromStr E) s = .error := by
  simp [mapRes, digit1_error h]

theorem parseInt_sound {s rest : Str} {n : Nat} (h : mapRes digit1 (usizeFromStr E) s = .ok rest n) :
    ∃ ds, s = ds ++ rest ∧ Numeral ds ∧ numeralValue ds = n ∧ n ≤ E.usizeMax := by
  rw [mapRes_ok_iff] at h
  obtain ⟨ds, h1, h2⟩ := h
  obtain ⟨rfl, hd, -⟩ := digit1_sound h1
  unfold usizeFromStr at h2
  split at h2
  · rename_i hle
    obtain rfl := Option.some.inj h2
    exact ⟨ds, rfl, hd, rfl, hle⟩
  · cases h2

theorem parseFormatArgRef_print (hE : E.Lawful) (r : ArgRef) (hd : r.Documented E) (hs : r.Supported E)
    (rest : Str) (hr : RefStop E r rest) : parseFormatArgRef E (r.print ++ rest) = .ok rest r.toRef := by
  simp only [parseFormatArgRef, alt_cons, alt_one, orElse_ok_iff]
  cases r with
  | index ds =>
    left
    rw [map_ok_iff]
    exact ⟨_, parseInt_digits hd hs hr, rfl⟩
  | name n =>
    right
    obtain ⟨c, cs, rfl, h1, h2⟩ := hd
    constructor
    · rw [map_error_iff]
      refine parseInt_error ?_
      rintro d ds h
      have : c = d := (List.cons.inj h).1
      subst this
      exact hE.start_not_digit h1
    · rw [map_ok_iff]
      refine ⟨c :: cs, ?_, rfl⟩
      obtain ⟨e1, e2⟩ := takeWhile_append_stop h2 hr
      show identifier E (c :: (cs ++ rest)) = _
      rw [identifier_eq, if_pos h1, e1, e2]

theorem parseFormatArgRef_sound {s rest : Str} {f : FormatArgRef}
    (h : parseFormatArgRef E s = .ok rest f) :
    ∃ r : ArgRef, s = r.print ++ rest ∧ f = r.toRef ∧ r.Documented E ∧ r.Supported E := by
  simp only [parseFormatArgRef, alt_cons, alt_one, orElse_ok_iff, map_ok_iff] at h
  rcases h with ⟨n, h, rfl⟩ | ⟨-, n, h, rfl⟩
  · obtain ⟨ds, rfl, h1, rfl, h2⟩ := parseInt_sound h
    exact ⟨.index ds, rfl, rfl, h1, h2⟩
  · cases s with
    | nil => simp [identifier_nil] at h
    | cons c cs =>
      rw [identifier_eq] at h
      split at h
      · rename_i hc
        obtain ⟨rfl, rfl⟩ := PRes.ok.inj h
        exact ⟨.name (c :: cs.takeWhile E.xidContinue),
          by simp [ArgRef.print, List.takeWhile_append_dropWhile], rfl,
          ⟨c, _, rfl, hc, all_takeWhile _ _⟩, trivial⟩
      · cases h

/-- An error of the reference parser. -/
theorem parseFormatArgRef_error {s : Str} (h : ∀ c cs, s = c :: cs →
    c.isDigit = false ∧ E.xidStart c = false ∧ c ≠ '_') : parseFormatArgRef E s = .error := by
  simp only [parseFormatArgRef, alt_cons, alt_one, orElse_error_iff, map_error_iff]
  refine ⟨parseInt_error fun c cs e => (h c cs e).1, ?_⟩
  cases s with
  | nil => rfl
  | cons c cs =>
    obtain ⟨-, h2, h3⟩ := h c cs rfl
    rw [identifier_eq, if_neg]
    rintro (h | h)
    · rw [h2] at h; cases h
    · exact h3 h

/-- What must not follow a count: a digit or `$`. -/
def CountStop (rest : Str) : Prop := ∀ c cs, rest = c :: cs → c.isDigit = false ∧ c ≠ '$'

theorem tag_char_error {c : Char} {s : Str} (h : ∀ d cs, s = d :: cs → d ≠ c) : tag [c] s = .error := by
  rw [tag_error_iff]
  rintro ⟨r, hr⟩
  exact h c r hr.symm rfl

theorem parseCount_print (hE : E.Lawful) (k : CountSyn) (hd : k.Documented E) (hs : k.Supported E)
    (rest : Str) (hr : CountStop rest) : parseCount E (k.print ++ rest) = .ok rest k.toCount := by
  simp only [parseCount, alt_cons, alt_one, orElse_ok_iff]
  cases k with
  | lit ds =>
    right
    have href := parseFormatArgRef_print hE (.index ds) hd hs rest (fun c cs e => (hr c cs e).1)
    constructor
    · rw [map_error_iff, terminated_error_iff]
      right
      exact ⟨rest, _, href, tag_char_error fun d cs e => (hr d cs e).2⟩
    · rw [map_ok_iff]
      exact ⟨_, parseInt_digits hd hs (fun c cs e => (hr c cs e).1), rfl⟩
  | param r =>
    left
    rw [map_ok_iff]
    refine ⟨r.toRef, ?_, rfl⟩
    rw [terminated_ok_iff]
    have e : (CountSyn.param r).print ++ rest = r.print ++ ('$' :: rest) := by simp [CountSyn.print]
    rw [e]
    refine ⟨'$' :: rest, str "$", parseFormatArgRef_print hE r hd hs _ ?_, rfl⟩
    cases r with
    | index ds =>
      rintro c cs ⟨⟩
      rfl
    | name n =>
      rintro c cs ⟨⟩
      exact hE.punct_cont (by decide)

theorem parseCount_sound {s rest : Str} {k : Count} (h : parseCount E s = .ok rest k) :
    ∃ c : CountSyn, s = c.print ++ rest ∧ k = c.toCount ∧ c.Documented E ∧ c.Supported E := by
  simp only [parseCount, alt_cons, alt_one, orElse_ok_iff, map_ok_iff, terminated_ok_iff,
    tag_ok_iff] at h
  rcases h with ⟨f, ⟨s1, _, h1, h2, -⟩, rfl⟩ | ⟨-, n, h, rfl⟩
  · obtain ⟨r, rfl, rfl, h3, h4⟩ := parseFormatArgRef_sound h1
    exact ⟨.param r, by rw [h2]; simp [CountSyn.print]; rfl, rfl, h3, h4⟩
  · obtain ⟨ds, rfl, h1, rfl, h2⟩ := parseInt_sound h
    exact ⟨.lit ds, rfl, rfl, h1, h2⟩

theorem parseCount_error {s : Str} (h : ∀ c cs, s = c :: cs →
    c.isDigit = false ∧ E.xidStart c = false ∧ c ≠ '_') : parseCount E s = .error := by
  simp only [parseCount, alt_cons, alt_one, orElse_error_iff, map_error_iff, terminated_error_iff]
  exact ⟨Or.inl (parseFormatArgRef_error h), parseInt_error fun c cs e => (h c cs e).1⟩

/-- A single identifier-like character that is not followed by more of an identifier or `$` is no count. -/
theorem parseCount_error_letter {c d : Char} {cs : Str} (hc : c.isDigit = false)
    (hd : E.xidContinue d = false) (hd2 : d ≠ '$') : parseCount E (c :: d :: cs) = .error := by
  simp only [parseCount, alt_cons, alt_one, orElse_error_iff, map_error_iff, terminated_error_iff]
  have hi : mapRes digit1 (usizeFromStr E) (c :: d :: cs) = .error :=
    parseInt_error (by rintro x xs ⟨⟩; exact hc)
  refine ⟨?_, hi⟩
  by_cases h : E.xidStart c = true ∨ c = '_'
  · right
    refine ⟨d :: cs, .Named [c], ?_, tag_char_error (by rintro x xs ⟨⟩; exact hd2)⟩
    simp only [parseFormatArgRef, alt_cons, alt_one, orElse_ok_iff]
    right
    refine ⟨by rw [map_error_iff]; exact hi, ?_⟩
    rw [map_ok_iff]
    exact ⟨[c], by rw [identifier_eq, if_pos h]; simp [hd], rfl⟩
  · left
    simp only [parseFormatArgRef, alt_cons, alt_one, orElse_error_iff, map_error_iff]
    exact ⟨hi, by rw [identifier_eq, if_neg h]⟩

end Stylish
