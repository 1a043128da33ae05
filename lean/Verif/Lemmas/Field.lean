import Verif.Model.StdPad
import Verif.Spec.Field
/-
What std's own types write, piece by piece.
-/

namespace Stylish

open Spec Spec.Syntax Spec.Fields

/-- The program writes exactly the text and succeeds. -/
def Shows (p : StdProg) (text : Str) : Prop := (stdWrites p).1.flatten = text ∧ (stdWrites p).2 = .ok ()

theorem shows_done : Shows (.done .ok) [] := ⟨rfl, rfl⟩

theorem shows_put {k : StdProg} {t : Str} (s : Str) (h : Shows k t) : Shows (.put s k) (s ++ t) := by
  constructor
  · show (s :: (stdWrites k).1).flatten = s ++ t
    rw [List.flatten_cons, h.1]
  · exact h.2

theorem shows_repeated {k : StdProg} {t : Str} (c : Char) (h : Shows k t) :
    ∀ n, Shows (.repeated c k n) (List.replicate n c ++ t)
  | 0 => by simpa [StdProg.repeated] using h
  | n + 1 => by
    have := shows_put [c] (shows_repeated c h n)
    rwa [List.replicate_succ]

theorem shows_writePrefix {k : StdProg} {t : Str} (sign : Option Char) (pre : Option Str) (h : Shows k t) :
    Shows (writePrefix sign pre k) (sign.toList ++ pre.getD [] ++ t) := by
  cases sign <;> cases pre
  · exact h
  · simpa [writePrefix] using shows_put _ h
  · exact shows_put [_] h
  · exact shows_put [_] (shows_put _ h)

/-- What `placed` does, with the options of std. -/
theorem placed_eq (usual : Align) (s : SpecSyn) (body : Str) (o : StdOpts) (hw : o.width = s.options.width)
    (ha : o.align = s.options.align) :
    placed usual s body =
      let n := o.width.getD 0 - body.length
      spaces (paddingSplit o.align usual n).1 ++ body ++ spaces (paddingSplit o.align usual n).2 := by
  unfold placed paddingSplit
  rw [← hw, ← ha]
  cases o.align.getD usual
  · simp [spaces]
  · have : ∀ n : Nat, n - n / 2 = (n + 1) / 2 := by omega
    simp [this]
  · simp [spaces]

theorem shows_padBody (s : SpecSyn) (body : Str) :
    Shows (match s.options.width with
      | none => .put body (.done .ok)
      | some width =>
        if body.length ≥ width then .put body (.done .ok)
        else
          .repeated ' ' (.put body (.repeated ' ' (.done .ok) (paddingSplit s.options.align .Left (width - body.length)).2))
            (paddingSplit s.options.align .Left (width - body.length)).1) (placed .Left s body) := by
  rw [placed_eq .Left s _ (stdView .Other s.options) rfl rfl]
  simp only [show (stdView .Other s.options).width = s.options.width from rfl,
    show (stdView .Other s.options).align = s.options.align from rfl]
  have hz : ∀ a, paddingSplit a .Left 0 = (0, 0) := by
    intro a; unfold paddingSplit; cases a.getD Align.Left <;> rfl
  cases hw : s.options.width with
  | none => simpa [hz, spaces] using shows_put body shows_done
  | some w =>
    simp only [Option.getD_some]
    split
    · rename_i hle
      have : w - body.length = 0 := by omega
      rw [this, hz]
      simpa [spaces] using shows_put body shows_done
    · have := shows_repeated ' ' (shows_put body (shows_repeated ' ' shows_done
        (paddingSplit s.options.align .Left (w - body.length)).2)) (paddingSplit s.options.align .Left (w - body.length)).1
      simpa [spaces] using this

theorem shows_padStr (s : SpecSyn) (kind : StdKind) (t : Str) :
    Shows (padStr (stdView kind s.options) t) (stringField s t) := by
  unfold padStr stringField
  simp only [show (stdView kind s.options).precision = s.options.precision from rfl,
    show (stdView kind s.options).width = s.options.width from rfl, show (stdView kind s.options).fill = ' ' from rfl,
    show (stdView kind s.options).align = s.options.align from rfl]
  cases s.options.precision with
  | none => exact shows_padBody s t
  | some p => exact shows_padBody s (t.take p)

theorem shows_padIntegral (s : SpecSyn) (kind : StdKind) (negative : Bool) (mark digits : Str) :
    Shows (padIntegral (stdView kind s.options) (!negative) mark digits) (numberField s negative mark digits) := by
  unfold padIntegral numberField
  simp only [show (stdView kind s.options).sign = s.sign from rfl, show (stdView kind s.options).zero = s.zero from rfl,
    show (stdView kind s.options).alternate = s.alternate from rfl,
    show (stdView kind s.options).width = s.options.width from rfl, show (stdView kind s.options).fill = ' ' from rfl,
    show (stdView kind s.options).align = s.options.align from rfl, Bool.not_not]
  generalize hs : (if negative = true then some '-' else if s.sign = some .Plus then some '+' else none) = sign
  generalize hp : (if s.alternate = true then some mark else none) = pre
  have hlead : (if negative = true then ['-'] else if s.sign = some .Plus then ['+'] else []) ++
      (if s.alternate = true then mark else []) = sign.toList ++ pre.getD [] := by
    rw [← hs, ← hp]
    cases negative <;> cases s.alternate <;> simp <;> split <;> rfl
  have hlen : digits.length + (if sign.isSome = true then 1 else 0) + (pre.getD []).length =
      (sign.toList ++ pre.getD []).length + digits.length := by
    cases sign <;> simp <;> omega
  rw [hlead, hlen]
  generalize hl : sign.toList ++ pre.getD [] = lead
  have hz : ∀ a, paddingSplit a .Right 0 = (0, 0) := by
    intro a; unfold paddingSplit; cases a.getD Align.Right <;> rfl
  have hplain : Shows (writePrefix sign pre (.put digits (.done .ok))) (lead ++ digits) := by
    have := shows_writePrefix sign pre (shows_put digits shows_done)
    rwa [hl, List.append_nil] at this
  rw [placed_eq .Right s _ (stdView kind s.options) rfl rfl]
  simp only [show (stdView kind s.options).width = s.options.width from rfl,
    show (stdView kind s.options).align = s.options.align from rfl, List.length_append]
  cases hw : s.options.width with
  | none => cases s.zero <;> simpa [hz, spaces] using hplain
  | some w =>
    simp only [Option.getD_some]
    split
    · rename_i hle
      have : w - (lead.length + digits.length) = 0 := by omega
      rw [this, hz, show w - lead.length - digits.length = 0 by omega]
      cases s.zero <;> simpa [spaces] using hplain
    · cases s.zero
      · have := shows_repeated ' ' (shows_writePrefix sign pre (shows_put digits (shows_repeated ' ' shows_done
          (paddingSplit s.options.align .Right (w - (lead.length + digits.length))).2)))
          (paddingSplit s.options.align .Right (w - (lead.length + digits.length))).1
        rw [hl] at this
        simpa [spaces] using this
      · have := shows_writePrefix sign pre (shows_repeated '0' (shows_put digits shows_done)
          (w - (lead.length + digits.length)))
        rw [hl] at this
        simpa [Nat.sub_sub] using this

/-- A digit, as Lean writes it. -/
theorem radixDigit_lower : ∀ d < 16, radixDigit false d = d.digitChar := by decide

theorem radixDigit_upper : ∀ d < 16, radixDigit true d = d.digitChar.toUpper := by decide

theorem radixLoop_eq {base : Nat} (hb : 1 < base) (hb' : base ≤ 16) (upper : Bool) (f : Char → Char)
    (hf : ∀ d < 16, radixDigit upper d = f d.digitChar) :
    ∀ fuel x buf, x < fuel → radixLoop base upper fuel x buf = (Nat.toDigits base x).map f ++ buf
  | 0, x, buf, h => by omega
  | fuel + 1, x, buf, h => by
    unfold radixLoop
    have hd := hf (x % base) (Nat.lt_of_lt_of_le (Nat.mod_lt _ (by omega)) hb')
    split
    · rename_i h0
      have hx : x < base := by
        rcases Nat.div_eq_zero_iff.1 h0 with h | h
        · omega
        · exact h
      rw [Nat.toDigits_of_lt_base hx, hd, Nat.mod_eq_of_lt hx]
      rfl
    · rename_i h0
      have hx : base ≤ x := by
        apply Nat.le_of_not_lt
        intro h
        exact h0 (Nat.div_eq_of_lt h)
      have hlt : x / base < x := Nat.div_lt_self (by omega) hb
      rw [radixLoop_eq hb hb' upper f hf fuel (x / base) _ (by omega), Nat.toDigits_of_base_le hb hx, hd]
      simp

theorem radixDigits_lower {base : Nat} (hb : 1 < base) (hb' : base ≤ 16) (x : Nat) :
    radixDigits base false x = Nat.toDigits base x := by
  rw [radixDigits, radixLoop_eq hb hb' false id (by simpa using radixDigit_lower) _ _ _ (by omega)]
  simp

theorem radixDigits_upper {base : Nat} (hb : 1 < base) (hb' : base ≤ 16) (x : Nat) :
    radixDigits base true x = (Nat.toDigits base x).map Char.toUpper := by
  rw [radixDigits, radixLoop_eq hb hb' true Char.toUpper radixDigit_upper _ _ _ (by omega)]
  simp

theorem unsigned_eq (bits : Nat) (n : Int) : (n % (2 ^ bits : Nat)).toNat = unsigned bits n := by
  unfold unsigned
  simp

theorem shows_intDisplay (s : SpecSyn) (kind : StdKind) (n : Int) :
    Shows (intDisplay n (stdView kind s.options)) (numberField s (decide (n < 0)) [] (Nat.toDigits 10 n.natAbs)) := by
  have := shows_padIntegral s kind (decide (n < 0)) [] (Nat.toDigits 10 n.natAbs)
  rw [intDisplay, radixDigits_lower (by omega) (by omega)]
  have e : decide (0 ≤ n) = !decide (n < 0) := by
    by_cases h : 0 ≤ n <;> simp [h] <;> omega
  rwa [e]

theorem shows_intRadix (s : SpecSyn) (kind : StdKind) {base : Nat} (hb : 1 < base) (hb' : base ≤ 16) (mark : Str)
    (bits : Nat) (n : Int) :
    Shows (intRadix base false mark bits n (stdView kind s.options))
      (numberField s false mark (Nat.toDigits base (unsigned bits n))) ∧
    Shows (intRadix base true mark bits n (stdView kind s.options))
      (numberField s false mark ((Nat.toDigits base (unsigned bits n)).map Char.toUpper)) := by
  constructor
  · rw [intRadix, radixDigits_lower hb hb', unsigned_eq]
    exact shows_padIntegral s kind false mark _
  · rw [intRadix, radixDigits_upper hb hb', unsigned_eq]
    exact shows_padIntegral s kind false mark _

end Stylish
