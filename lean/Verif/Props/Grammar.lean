import Verif.Lemmas.MacroRun
/-
Properties of the format string parser: C33, C34, C35, C36.

`Spec/Grammar.lean` holds the documented grammar (`Documented`, `print`), the restrictions of the
implementation (`Supported`) and what a tree means (`toPiece`).
-/

namespace Stylish.Props

open Nom Format Spec Spec.Syntax

/-! ## An example tree -/

/-- `^+#05.3(fg=red,bold)x?`. -/
def sampleSpec : SpecSyn where
  align := some (none, .Center)
  sign := some .Plus
  alternate := true
  zero := true
  width := some (.lit ['5'])
  precision := some (.count (.lit ['3']))
  attrs := some ⟨[.fg .red, .bold], false⟩
  ty := .lowerHexDebug

/-- The tree of `a{{{0:^+#05.3(fg=red,bold)x?}{name}}}{:s}\n`. -/
def sampleTree : List PieceSyn :=
  [.text ['a'], .openBrace,
   .arg (some (.index ['0'])) (some sampleSpec),
   .arg (some (.name (str "name"))) none, .closeBrace,
   .arg none (some { ty := .stylish }), .text ['\n']]

theorem sampleTree_print : print sampleTree = str "a{{{0:^+#05.3(fg=red,bold)x?}{name}}}{:s}\n" := by
  decide +kernel

theorem sampleTree_documented : Documented asciiEnv sampleTree := by
  refine ⟨?_, ?_⟩
  · intro p hp
    simp only [sampleTree, List.mem_cons, List.not_mem_nil, or_false] at hp
    rcases hp with rfl | rfl | rfl | rfl | rfl | rfl | rfl
    · simp [PieceSyn.Documented]
    · trivial
    · refine ⟨?_, ?_⟩
      · rintro r ⟨⟩
        exact ⟨by simp, by decide⟩
      · rintro s ⟨⟩
        refine ⟨?_, ?_, ?_, ?_⟩
        · rintro c ⟨⟩; exact ⟨by simp, by decide⟩
        · rintro ds _ ⟨⟩
        · rintro c ⟨⟩; exact ⟨by simp, by decide⟩
        · rintro a ⟨⟩ h; cases h
    · refine ⟨?_, by simp⟩
      rintro r ⟨⟩
      exact ⟨'n', ['a', 'm', 'e'], rfl, Or.inl (by decide), by decide⟩
    · trivial
    · refine ⟨by simp, ?_⟩
      rintro s ⟨⟩
      refine ⟨by simp, by simp, by simp, by simp⟩
    · simp [PieceSyn.Documented]
  · simp [Merged, sampleTree, PieceSyn.isText]

theorem sampleTree_supported : Supported asciiEnv sampleTree := by
  refine ⟨?_, ?_⟩
  · intro p hp
    simp only [sampleTree, List.mem_cons, List.not_mem_nil, or_false] at hp
    rcases hp with rfl | rfl | rfl | rfl | rfl | rfl | rfl
    · trivial
    · trivial
    · refine ⟨?_, ?_⟩
      · rintro r ⟨⟩
        show numeralValue ['0'] ≤ 2 ^ 64 - 1
        decide
      · rintro s ⟨⟩
        refine ⟨?_, ?_, ?_, ?_, ?_⟩
        · rintro f a ⟨⟩
        · rintro c ⟨⟩
          show numeralValue ['5'] ≤ 2 ^ 64 - 1
          decide
        · rintro ds ⟨⟩
        · rintro p ⟨⟩
          refine ⟨_, rfl, ?_⟩
          show numeralValue ['3'] ≤ 2 ^ 64 - 1
          decide
        · rintro a ⟨⟩
          exact ⟨by simp, rfl⟩
    · refine ⟨?_, by simp⟩
      rintro r ⟨⟩
      trivial
    · trivial
    · refine ⟨by simp, ?_⟩
      rintro s ⟨⟩
      refine ⟨by simp, by simp, by simp, by simp, by simp⟩
    · trivial
  · simp [NoFalseFill, sampleTree, sampleSpec, PieceSyn.emptySpec, SpecSyn.print, Ty.print]

/-! ## C34 -/

/-- C34: writing any tree of the supported syntax and parsing the string gives back what the tree means,
piece by piece, with nothing left over. -/
theorem C34_parses_back {E : Env} (hE : E.Lawful) (t : List PieceSyn) (hd : Documented E t)
    (hs : Supported E t) : parseFormat E (print t) = .ok [] (t.map PieceSyn.toPiece) :=
  (parseFormat_iff hE _ _ _).2 ⟨rfl, t, rfl, rfl, hd, hs⟩

/-- The usual decimal digits of a number are a numeral with that value. -/
theorem decimal_numeral (n : Nat) : Numeral (Nat.toDigits 10 n) ∧ numeralValue (Nat.toDigits 10 n) = n :=
  ⟨⟨Nat.toDigits_ne_nil, fun _ hd => Nat.isDigit_of_mem_toDigits (by decide) (by decide) hd⟩,
    Nat.ofDigitChars_ten_toDigits⟩

/-- C34: numbers mean what their usual decimal notation means, everywhere they are allowed: for any three
numbers that fit in `usize`, `{n:0w.p}` refers to positional argument `n` with zero padding, width `w` and
precision `p`. -/
theorem C34_decimal {E : Env} (hE : E.Lawful) (n w p : Nat) (hn : n ≤ E.usizeMax) (hw : w ≤ E.usizeMax)
    (hp : p ≤ E.usizeMax) :
    parseFormat E (['{'] ++ Nat.toDigits 10 n ++ [':', '0'] ++ Nat.toDigits 10 w ++ ['.'] ++
      Nat.toDigits 10 p ++ ['}']) = .ok []
      [.Arg ⟨some (.Positional n), ⟨⟨none, none, false, true, some (.Integer w), some (.Integer p), none⟩,
        ⟨none, none, none⟩, .Display⟩⟩] := by
  let spec : SpecSyn := { zero := true, width := some (.lit (Nat.toDigits 10 w)), precision := some (.count (.lit (Nat.toDigits 10 p))) }
  let t : List PieceSyn := [.arg (some (.index (Nat.toDigits 10 n))) (some spec)]
  have hd : Documented E t := by
    refine ⟨?_, trivial⟩
    intro q hq
    simp only [t, List.mem_singleton] at hq
    subst hq
    refine ⟨?_, ?_⟩
    · rintro r ⟨⟩; exact (decimal_numeral n).1
    · rintro s ⟨⟩
      refine ⟨?_, ?_, ?_, ?_⟩
      · rintro c ⟨⟩; exact (decimal_numeral w).1
      · rintro ds - ⟨⟩
      · rintro c ⟨⟩; exact (decimal_numeral p).1
      · rintro a ⟨⟩
  have hs : Supported E t := by
    refine ⟨?_, ?_⟩
    · intro q hq
      simp only [t, List.mem_singleton] at hq
      subst hq
      refine ⟨?_, ?_⟩
      · rintro r ⟨⟩
        show numeralValue _ ≤ _
        rw [(decimal_numeral n).2]; exact hn
      · rintro s ⟨⟩
        refine ⟨?_, ?_, ?_, ?_, ?_⟩
        · rintro f a ⟨⟩
        · rintro c ⟨⟩
          show numeralValue _ ≤ _
          rw [(decimal_numeral w).2]; exact hw
        · rintro ds ⟨⟩
        · rintro q ⟨⟩
          refine ⟨_, rfl, ?_⟩
          show numeralValue _ ≤ _
          rw [(decimal_numeral p).2]; exact hp
        · rintro a ⟨⟩
    · simp [t, NoFalseFill, PieceSyn.emptySpec, spec, SpecSyn.print]
  have h := C34_parses_back hE t hd hs
  have e1 : print t = ['{'] ++ Nat.toDigits 10 n ++ [':', '0'] ++ Nat.toDigits 10 w ++ ['.'] ++
      Nat.toDigits 10 p ++ ['}'] := by
    simp [t, spec, print, PieceSyn.print, SpecSyn.print, ArgRef.print, CountSyn.print, PrecisionSyn.print, Ty.print]
  have e2 : t.map PieceSyn.toPiece = [.Arg ⟨some (.Positional (numeralValue (Nat.toDigits 10 n))),
      ⟨⟨none, none, false, true, some (.Integer (numeralValue (Nat.toDigits 10 w))),
        some (.Integer (numeralValue (Nat.toDigits 10 p))), none⟩, ⟨none, none, none⟩, .Display⟩⟩] := rfl
  rw [e1, e2, (decimal_numeral n).2, (decimal_numeral w).2, (decimal_numeral p).2] at h
  exact h

example : parseFormat asciiEnv (str "a{{{0:^+#05.3(fg=red,bold)x?}{name}}}{:s}\n") = .ok []
    [.Lit ['a'], .Lit ['{'],
     .Arg ⟨some (.Positional 0), ⟨⟨some .Center, some .Plus, true, true, some (.Integer 5), some (.Integer 3),
       some .Lower⟩, ⟨some .Red, none, some .Bold⟩, .Debug⟩⟩,
     .Arg ⟨some (.Named (str "name")), ⟨⟨none, none, false, false, none, none, none⟩, ⟨none, none, none⟩, .Display⟩⟩,
     .Lit ['}'],
     .Arg ⟨none, ⟨⟨none, none, false, false, none, none, none⟩, ⟨none, none, none⟩, .Stylish⟩⟩,
     .Lit ['\n']] := by
  rw [← sampleTree_print, C34_parses_back asciiEnv_lawful sampleTree sampleTree_documented sampleTree_supported]
  decide +kernel

/-! ## C35 -/

/-- C35: every string the parser accepts is the string of a tree of the documented grammar, and the result
is what that tree means. -/
theorem C35_only_documented {E : Env} (hE : E.Lawful) (s rest : Str) (ps : List Piece)
    (h : parseFormat E s = .ok rest ps) :
    rest = [] ∧ ∃ t, print t = s ∧ Documented E t ∧ t.map PieceSyn.toPiece = ps := by
  obtain ⟨h1, t, h2, h3, h4, -⟩ := (parseFormat_iff hE s rest ps).1 h
  exact ⟨h1, t, h2, h4, h3⟩

/-- C35: the parser decides membership exactly: a string is accepted if and only if it is the string of a
documented, supported tree. -/
theorem C35_accepts_iff {E : Env} (hE : E.Lawful) (s : Str) :
    (∃ rest ps, parseFormat E s = .ok rest ps) ↔ ∃ t, print t = s ∧ Documented E t ∧ Supported E t := by
  constructor
  · rintro ⟨rest, ps, h⟩
    obtain ⟨-, t, h2, -, h4, h5⟩ := (parseFormat_iff hE s rest ps).1 h
    exact ⟨t, h2, h4, h5⟩
  · rintro ⟨t, rfl, hd, hs⟩
    exact ⟨[], _, C34_parses_back hE t hd hs⟩

/-- C35: there is no second reading: two supported trees written the same mean the same. -/
theorem C35_unambiguous {E : Env} (hE : E.Lawful) (t t' : List PieceSyn) (hd : Documented E t)
    (hs : Supported E t) (hd' : Documented E t') (hs' : Supported E t') (h : print t = print t') :
    t.map PieceSyn.toPiece = t'.map PieceSyn.toPiece :=
  tree_meaning_unique hE hd hs hd' hs' h

/-- No braces inside a reference. -/
theorem ref_noBrace {E : Env} (hE : E.Lawful) (r : ArgRef) (h : r.Documented E) :
    '{' ∉ r.print ∧ '}' ∉ r.print := by
  cases r with
  | index ds => exact ⟨numeral_ne h (by decide), numeral_ne h (by decide)⟩
  | name n => exact ⟨hE.ident_ne h (by decide), hE.ident_ne h (by decide)⟩

theorem count_noBrace {E : Env} (hE : E.Lawful) (c : CountSyn) (h : c.Documented E) :
    '{' ∉ c.print ∧ '}' ∉ c.print := by
  cases c with
  | lit ds => exact ⟨numeral_ne h (by decide), numeral_ne h (by decide)⟩
  | param r => simpa [CountSyn.print] using ref_noBrace hE r h

theorem attr_noBrace (a : Attr) : '{' ∉ a.print ∧ '}' ∉ a.print := by
  cases a with
  | fg c => cases c <;> decide
  | bg c => cases c <;> decide
  | _ => decide

theorem attrs_noBrace (as : List Attr) : '{' ∉ printAttrs as ∧ '}' ∉ printAttrs as := by
  have h : ∀ as : List Attr, '{' ∉ as.flatMap (fun a => ',' :: a.print) ∧
      '}' ∉ as.flatMap (fun a => ',' :: a.print) := by
    intro as
    simp only [List.mem_flatMap, List.mem_cons, not_exists, not_and, not_or]
    exact ⟨fun a _ => ⟨by decide, (attr_noBrace a).1⟩, fun a _ => ⟨by decide, (attr_noBrace a).2⟩⟩
  cases as with
  | nil => simp [printAttrs]
  | cons a as =>
    simp only [printAttrs, List.mem_append, not_or]
    exact ⟨⟨(attr_noBrace a).1, (h as).1⟩, (attr_noBrace a).2, (h as).2⟩

theorem spec_noBrace {E : Env} (hE : E.Lawful) (s : SpecSyn) (hd : s.Documented E) (hs : s.Supported E) :
    '{' ∉ s.print ∧ '}' ∉ s.print := by
  have h1 : '{' ∉ optStr printFillAlign s.align ∧ '}' ∉ optStr printFillAlign s.align := by
    rcases ha : s.align with _ | ⟨_ | f, a⟩
    · simp
    · cases a <;> simp [printFillAlign, printAlign]
    · have := hs.1 f a ha
      subst this
      cases a <;> simp [printFillAlign, printAlign]
  have h2 : '{' ∉ optStr (fun sg => [printSign sg]) s.sign ∧ '}' ∉ optStr (fun sg => [printSign sg]) s.sign := by
    rcases s.sign with _ | _ | _ <;> simp [printSign]
  have h3 : '{' ∉ optStr CountSyn.print s.width ∧ '}' ∉ optStr CountSyn.print s.width := by
    rcases hw : s.width with _ | c
    · simp
    · exact count_noBrace hE c (hd.1 c hw)
  have h4 : '{' ∉ optStr PrecisionSyn.print s.precision ∧ '}' ∉ optStr PrecisionSyn.print s.precision := by
    rcases hw : s.precision with _ | c | _
    · simp
    · have := count_noBrace hE c (hd.2.2.1 _ hw)
      simpa [PrecisionSyn.print] using this
    · simp [PrecisionSyn.print]
  have h5 : '{' ∉ optStr AttrsSyn.print s.attrs ∧ '}' ∉ optStr AttrsSyn.print s.attrs := by
    rcases hw : s.attrs with _ | a
    · simp
    · have := attrs_noBrace a.attrs
      cases htc : a.trailingComma <;> simpa [AttrsSyn.print, htc] using this
  have h6 : '{' ∉ s.ty.print ∧ '}' ∉ s.ty.print := by cases s.ty <;> simp [Ty.print]
  have h7 : '{' ∉ (if s.alternate then ['#'] else []) ∧ '}' ∉ (if s.alternate then ['#'] else []) := by
    cases s.alternate <;> simp
  have h8 : '{' ∉ (if s.zero then ['0'] else []) ∧ '}' ∉ (if s.zero then ['0'] else []) := by
    cases s.zero <;> simp
  simp only [SpecSyn.print, List.mem_append, not_or]
  exact ⟨⟨⟨⟨⟨⟨⟨⟨h1.1, h2.1⟩, h7.1⟩, h8.1⟩, h3.1⟩, h4.1⟩, h5.1⟩, h6.1⟩,
    ⟨⟨⟨⟨⟨⟨⟨h1.2, h2.2⟩, h7.2⟩, h8.2⟩, h3.2⟩, h4.2⟩, h5.2⟩, h6.2⟩⟩

theorem count_zero_of {c : Char} {s : Str} (h : c ∉ s) : s.count c = 0 := List.count_eq_zero.2 h

theorem piece_braces {E : Env} (hE : E.Lawful) (p : PieceSyn) (hd : p.Documented E) (hs : p.Supported E) :
    p.print.count '{' % 2 = p.print.count '}' % 2 := by
  cases p with
  | text s => rw [PieceSyn.print, count_zero_of hd.2.1, count_zero_of hd.2.2]
  | openBrace => rfl
  | closeBrace => rfl
  | arg ref spec =>
    have h1 : '{' ∉ optStr ArgRef.print ref ∧ '}' ∉ optStr ArgRef.print ref := by
      cases ref with
      | none => simp
      | some r => exact ref_noBrace hE r (hd.1 r rfl)
    have h2 : '{' ∉ optStr (fun s => ':' :: SpecSyn.print s) spec ∧
        '}' ∉ optStr (fun s => ':' :: SpecSyn.print s) spec := by
      cases spec with
      | none => simp
      | some s => simpa using spec_noBrace hE s (hd.2 s rfl) (hs.2 s rfl)
    simp only [PieceSyn.print, List.count_append, count_zero_of h1.1, count_zero_of h1.2,
      count_zero_of h2.1, count_zero_of h2.2]
    rfl

/-- C35: stray braces are rejected: in an accepted string the numbers of `{` and `}` have the same parity. -/
theorem C35_brace_parity {E : Env} (hE : E.Lawful) (s rest : Str) (ps : List Piece)
    (h : parseFormat E s = .ok rest ps) : s.count '{' % 2 = s.count '}' % 2 := by
  obtain ⟨-, t, rfl, -, hd, hs⟩ := (parseFormat_iff hE s rest ps).1 h
  obtain ⟨hd, -⟩ := hd
  obtain ⟨hs, -⟩ := hs
  clear h
  induction t with
  | nil => rfl
  | cons p t ih =>
    have h1 := piece_braces hE p (hd p (by simp)) (hs p (by simp))
    have h2 := ih (fun q hq => hd q (by simp [hq])) (fun q hq => hs q (by simp [hq]))
    simp only [print, List.flatMap_cons, List.count_append] at h2 ⊢
    omega

/-- C35: in particular a text with a single brace in it is rejected, wherever the brace is. -/
theorem C35_lone_brace {E : Env} (hE : E.Lawful) (before after : Str) (b : Char) (hb : b = '{' ∨ b = '}')
    (h1 : '{' ∉ before ++ after) (h2 : '}' ∉ before ++ after) :
    ¬ ∃ rest ps, parseFormat E (before ++ b :: after) = .ok rest ps := by
  rintro ⟨rest, ps, h⟩
  have := C35_brace_parity hE _ _ _ h
  have e1 := count_zero_of h1
  have e2 := count_zero_of h2
  simp only [List.count_append] at e1 e2
  rcases hb with rfl | rfl
  · rw [List.count_append, List.count_cons_self, List.count_append,
      List.count_cons_of_ne (by decide)] at this
    omega
  · rw [List.count_append, List.count_cons_of_ne (by decide), List.count_append,
      List.count_cons_self] at this
    omega

example : parseFormat asciiEnv (str "a}b") = .error ∧ parseFormat asciiEnv (str "a{b") = .error ∧
    parseFormat asciiEnv (str "{0x}") = .error ∧ parseFormat asciiEnv (str "{:(fg=pink)}") = .failure := by
  decide +kernel

/-! ## C36 -/

/-- The full claim C36: every string of the documented grammar is accepted. -/
def C36_claim (E : Env) : Prop :=
  ∀ t, Documented E t → ∃ rest ps, parseFormat E (print t) = .ok rest ps

/-- C36, the part that holds: documented strings are accepted provided numbers fit `usize`, the fill (if
any) is a space, there is no `.*`, an attribute list is not empty and has no trailing comma, `0$` is not
used as a width, and `{:}` is not followed by `<`, `^` or `>`. -/
theorem C36_documented_accepted_partial {E : Env} (hE : E.Lawful) (t : List PieceSyn)
    (hd : Documented E t)
    (hnum : ∀ p ∈ t, p.Supported E)
    (hfill : ∀ before after, t = before ++ after →
      (∃ p, before.getLast? = some p ∧ p.emptySpec = true) →
      ∀ c cs, print after = c :: cs → c ≠ '<' ∧ c ≠ '^' ∧ c ≠ '>') :
    ∃ ps, parseFormat E (print t) = .ok [] ps := by
  refine ⟨_, C34_parses_back hE t hd ⟨hnum, ?_⟩⟩
  have key : ∀ (t pre : List PieceSyn), (∀ before after, pre ++ t = before ++ after →
      (∃ p, before.getLast? = some p ∧ p.emptySpec = true) →
      ∀ c cs, print after = c :: cs → c ≠ '<' ∧ c ≠ '^' ∧ c ≠ '>') → NoFalseFill t := by
    intro t
    induction t with
    | nil => intros; trivial
    | cons p t ih =>
      intro pre h
      refine ⟨fun hp => ?_, ih (pre ++ [p]) (by simpa using h)⟩
      have := h (pre ++ [p]) t (by simp) ⟨p, by simp, hp⟩
      unfold startsWithAlign
      rcases hx : print t with _ | ⟨c, cs⟩
      · rfl
      · obtain ⟨a, b, d⟩ := this c cs hx
        simp [a, b, d]
  exact key t [] (by simpa using hfill)

/-- An empty attribute list. -/
def emptyAttrs : List PieceSyn := [.arg none (some { attrs := some ⟨[], false⟩ })]
/-- A trailing comma. -/
def trailingComma : List PieceSyn := [.arg none (some { attrs := some ⟨[.bold], true⟩ })]
/-- A fill other than a space. -/
def starFill : List PieceSyn := [.arg none (some { align := some (some '*', .Left), width := some (.lit ['5']) })]
/-- An empty specification followed by `<`. -/
def falseFill : List PieceSyn := [.arg none (some {}), .text ['<']]
/-- `.*`. -/
def starPrecision : List PieceSyn := [.arg none (some { precision := some .star })]
/-- `0$` as a width. -/
def zeroParam : List PieceSyn := [.arg none (some { width := some (.param (.index ['0'])) })]

theorem env_no_punct {E : Env} (hE : E.Lawful) : E =
    ⟨fun c => if c = ':' then false else if c = '(' then false else E.xidStart c, E.xidContinue, E.usizeMax⟩ := by
  have h1 : E.xidStart ':' = false := by rw [hE.start_ascii _ (by decide)]; decide
  have h2 : E.xidStart '(' = false := by rw [hE.start_ascii _ (by decide)]; decide
  cases E with
  | mk a b c =>
    congr
    funext x
    split
    · subst x; exact h1
    · split
      · subst x; exact h2
      · rfl

/-- C36: the bright colours have no name at all in a format string: whatever follows, an attribute `fg=bright…`
or `bg=bright…` is an error (no other colour starts like that), although the documentation says that these
attributes take "a `Color` value in lowercase". -/
theorem C36_bright_rejected {E : Env} (hE : E.Lawful) (rest : Str) :
    parseFormat E (str "{:(fg=bright" ++ rest) = .failure ∧
    parseFormat E (str "{:(bg=bright" ++ rest) = .failure := by
  have e : str "{:(fg=bright" = ['{', ':', '(', 'f', 'g', '=', 'b', 'r', 'i', 'g', 'h', 't'] := by decide
  have e' : str "{:(bg=bright" = ['{', ':', '(', 'b', 'g', '=', 'b', 'r', 'i', 'g', 'h', 't'] := by decide
  have h : ∀ rest, parseFormat E ('{' :: ':' :: '(' :: 'f' :: 'g' :: '=' :: 'b' :: 'r' :: rest) = .failure := by
    intro rest
    rw [env_no_punct hE]
    with_unfolding_all exact rfl
  have h' : ∀ rest, parseFormat E ('{' :: ':' :: '(' :: 'b' :: 'g' :: '=' :: 'b' :: 'r' :: rest) = .failure := by
    intro rest
    rw [env_no_punct hE]
    with_unfolding_all exact rfl
  rw [e, e']
  exact ⟨h _, h' _⟩

/-- C36 is false: each of these strings of the documented grammar is rejected: `{:()}`, `{:(bold,)}`,
`{:*<5}` (a panic), `{:}<` (a panic), `{:.*}` and `{:0$}`. -/
theorem C36_counterexamples : ¬ C36_claim asciiEnv ∧
    (Documented asciiEnv emptyAttrs ∧ print emptyAttrs = str "{:()}" ∧
      parseFormat asciiEnv (str "{:()}") = .failure) ∧
    (Documented asciiEnv trailingComma ∧ print trailingComma = str "{:(bold,)}" ∧
      parseFormat asciiEnv (str "{:(bold,)}") = .failure) ∧
    (Documented asciiEnv starFill ∧ print starFill = str "{:*<5}" ∧
      parseFormat asciiEnv (str "{:*<5}") = .panic) ∧
    (Documented asciiEnv falseFill ∧ print falseFill = str "{:}<" ∧
      parseFormat asciiEnv (str "{:}<") = .panic) ∧
    (Documented asciiEnv starPrecision ∧ print starPrecision = str "{:.*}" ∧
      parseFormat asciiEnv (str "{:.*}") = .error) ∧
    (Documented asciiEnv zeroParam ∧ print zeroParam = str "{:0$}" ∧
      parseFormat asciiEnv (str "{:0$}") = .error) := by
  have h1 : Documented asciiEnv emptyAttrs := by
    simp [Documented, emptyAttrs, PieceSyn.Documented, SpecSyn.Documented, AttrsSyn.Documented, Merged]
  refine ⟨?_, ⟨h1, by decide +kernel⟩, ⟨?_, by decide +kernel⟩, ⟨?_, by decide +kernel⟩, ⟨?_, by decide +kernel⟩,
    ⟨?_, by decide +kernel⟩, ⟨?_, by decide +kernel⟩⟩
  · intro h
    obtain ⟨rest, ps, h⟩ := h emptyAttrs h1
    have e : parseFormat asciiEnv (print emptyAttrs) = .failure := by decide +kernel
    rw [e] at h
    cases h
  · simp [Documented, trailingComma, PieceSyn.Documented, SpecSyn.Documented, AttrsSyn.Documented, Merged]
  · simp [Documented, starFill, PieceSyn.Documented, SpecSyn.Documented, CountSyn.Documented, Numeral, Merged]
  · simp [Documented, falseFill, PieceSyn.Documented, SpecSyn.Documented, Merged, PieceSyn.isText]
  · simp [Documented, starPrecision, PieceSyn.Documented, SpecSyn.Documented, PrecisionSyn.Documented, Merged]
  · simp [Documented, zeroParam, PieceSyn.Documented, SpecSyn.Documented, CountSyn.Documented,
      ArgRef.Documented, Numeral, Merged]

/-! ## C33 -/

/-- Double every brace. -/
def doubleBraces : Str → Str
  | [] => []
  | c :: s => if c = '{' ∨ c = '}' then c :: c :: doubleBraces s else c :: doubleBraces s

/-- Put a character in front of the first text piece. -/
def consText (c : Char) : List PieceSyn → List PieceSyn
  | .text t :: rest => .text (c :: t) :: rest
  | rest => .text [c] :: rest

/-- The tree of a text with its braces doubled. -/
def literalTree : Str → List PieceSyn
  | [] => []
  | c :: s =>
    if c = '{' then .openBrace :: literalTree s
    else if c = '}' then .closeBrace :: literalTree s
    else consText c (literalTree s)

theorem consText_print (c : Char) (t : List PieceSyn) : print (consText c t) = c :: print t := by
  unfold consText
  split <;> simp [print, PieceSyn.print]

theorem literalTree_print (s : Str) : print (literalTree s) = doubleBraces s := by
  induction s with
  | nil => rfl
  | cons c s ih =>
    simp only [literalTree, doubleBraces]
    by_cases h1 : c = '{'
    · simp [h1, print, PieceSyn.print] at ih ⊢; exact ih
    · by_cases h2 : c = '}'
      · simp [h2, print, PieceSyn.print] at ih ⊢; exact ih
      · simp [h1, h2, consText_print, ih]

/-- A literal piece: no placeholder. -/
def IsLiteral (p : PieceSyn) : Prop := p.isText = true ∨ p = .openBrace ∨ p = .closeBrace

theorem literalTree_good (E : Env) (s : Str) :
    Documented E (literalTree s) ∧ ∀ p ∈ literalTree s, IsLiteral p := by
  induction s with
  | nil => exact ⟨⟨by simp [literalTree], trivial⟩, by simp [literalTree]⟩
  | cons c s ih =>
    obtain ⟨⟨hd, hm⟩, hl⟩ := ih
    simp only [literalTree]
    by_cases h1 : c = '{'
    · rw [if_pos h1]
      refine ⟨⟨by simpa [PieceSyn.Documented] using hd, ?_⟩, by simpa [IsLiteral] using hl⟩
      cases hx : literalTree s with
      | nil => trivial
      | cons q r => rw [hx] at hm; exact ⟨by simp [PieceSyn.isText], hm⟩
    · rw [if_neg h1]
      by_cases h2 : c = '}'
      · rw [if_pos h2]
        refine ⟨⟨by simpa [PieceSyn.Documented] using hd, ?_⟩, by simpa [IsLiteral] using hl⟩
        cases hx : literalTree s with
        | nil => trivial
        | cons q r => rw [hx] at hm; exact ⟨by simp [PieceSyn.isText], hm⟩
      · rw [if_neg h2]
        have hc1 : ¬ '{' = c := fun e => h1 e.symm
        have hc2 : ¬ '}' = c := fun e => h2 e.symm
        unfold consText
        split
        · rename_i t r hx
          rw [hx] at hd hm hl
          have ht := hd (.text t) (by simp)
          refine ⟨⟨?_, ?_⟩, ?_⟩
          · intro p hp
            rcases List.mem_cons.1 hp with rfl | hp
            · simp [PieceSyn.Documented, hc1, hc2, ht.2.1, ht.2.2]
            · exact hd p (by simp [hp])
          · cases r with
            | nil => trivial
            | cons q r => exact ⟨fun _ => hm.1 rfl, hm.2⟩
          · intro p hp
            rcases List.mem_cons.1 hp with rfl | hp
            · exact Or.inl rfl
            · exact hl p (by simp [hp])
        · rename_i hx
          refine ⟨⟨?_, ?_⟩, ?_⟩
          · intro p hp
            rcases List.mem_cons.1 hp with rfl | hp
            · simp [PieceSyn.Documented, hc1, hc2]
            · exact hd p hp
          · cases hy : literalTree s with
            | nil => trivial
            | cons q r =>
              rw [hy] at hm
              refine ⟨fun _ => ?_, hm⟩
              cases q with
              | text t => exact absurd hy (hx t r)
              | _ => rfl
          · intro p hp
            rcases List.mem_cons.1 hp with rfl | hp
            · exact Or.inl rfl
            · exact hl p hp

theorem literal_supported (E : Env) (t : List PieceSyn) (h : ∀ p ∈ t, IsLiteral p) : Supported E t := by
  refine ⟨fun p hp => ?_, ?_⟩
  · rcases h p hp with h | rfl | rfl
    · cases p <;> first | trivial | cases h
    · trivial
    · trivial
  · induction t with
    | nil => trivial
    | cons p t ih =>
      refine ⟨fun he => ?_, ih (fun q hq => h q (by simp [hq]))⟩
      rcases h p (by simp) with h | rfl | rfl
      · cases p <;> first | cases he | cases h
      · cases he
      · cases he

theorem literal_no_arg {t before after : List PieceSyn} {ref : Option ArgRef} {spec : Option SpecSyn}
    (h : ∀ p ∈ t, IsLiteral p) (e : t = before ++ .arg ref spec :: after) : False := by
  have := h (.arg ref spec) (by simp [e])
  rcases this with h | h | h <;> cases h

/-- The text of a literal piece. -/
def litText : PieceSyn → Str
  | .text s => s
  | .openBrace => ['{']
  | .closeBrace => ['}']
  | .arg _ _ => []

theorem literalTree_output (s : Str) (scope : Str → ArgVal) (st : Style) (before : List PieceSyn) :
    flatten (treeOutput [] scope st before (literalTree s)).1 = paint s st ∧
    (treeOutput [] scope st before (literalTree s)).2 = .ok () := by
  have key : ∀ (t : List PieceSyn) (before : List PieceSyn), (∀ p ∈ t, IsLiteral p) →
      flatten (treeOutput [] scope st before t).1 = paint (t.flatMap litText) st ∧
      (treeOutput [] scope st before t).2 = .ok () := by
    intro t
    induction t with
    | nil => intros; exact ⟨rfl, rfl⟩
    | cons p t ih =>
      intro before h
      obtain ⟨i1, i2⟩ := ih (before ++ [p]) (fun q hq => h q (by simp [hq]))
      rw [List.flatMap_cons, show ∀ a b, paint (a ++ b) st = paint a st ++ paint b st from fun a b => List.map_append]
      rcases p with s | _ | _ | ⟨ref, spec⟩
      · exact ⟨by rw [← i1]; simp [treeOutput, pieceOutput, flatten, litText], i2⟩
      · exact ⟨by rw [← i1]; simp [treeOutput, pieceOutput, flatten, litText], i2⟩
      · exact ⟨by rw [← i1]; simp [treeOutput, pieceOutput, flatten, litText], i2⟩
      · exact (literal_no_arg (t := .arg ref spec :: t) (before := []) h rfl).elim
  have htext : ∀ s, (literalTree s).flatMap litText = s := by
    intro s
    induction s with
    | nil => rfl
    | cons c s ih =>
      simp only [literalTree]
      by_cases h1 : c = '{'
      · rw [if_pos h1, List.flatMap_cons, ih, h1]; rfl
      · rw [if_neg h1]
        by_cases h2 : c = '}'
        · rw [if_pos h2, List.flatMap_cons, ih, h2]; rfl
        · rw [if_neg h2]
          unfold consText
          split
          · rename_i t r hx
            rw [hx, List.flatMap_cons] at ih
            rw [List.flatMap_cons, ← ih]
            rfl
          · rw [List.flatMap_cons, ih]; rfl
  have := key (literalTree s) before (literalTree_good ⟨fun _ => true, fun _ => true, 0⟩ s).2
  rw [htext] at this
  exact this

/-- C33: the format string made by doubling the braces of any text is accepted (without arguments), and
formatting it writes exactly that text, all of it in the current style, and returns `Ok`. -/
theorem C33_literal_text {E : Env} (hE : E.Lawful) (s : Str) (scope : Str → ArgVal) :
    ∃ x, formatArgs E (doubleBraces s) [] scope = .ok x ∧
      ∀ st a, flatten (writes x.f st a).1 = paint s st ∧ (writes x.f st a).2 = .ok () := by
  obtain ⟨hd, hl⟩ := literalTree_good E s
  have hs := literal_supported E _ hl
  have hr : RefsOk ([] : List (MacroArg ArgVal)) (literalTree s) :=
    fun before ref spec after e => (literal_no_arg hl e).elim
  have hall : PositionalFirst ([] : List (MacroArg ArgVal)) ∧ RefsOk ([] : List (MacroArg ArgVal)) (literalTree s) ∧
      AllUsed ([] : List (MacroArg ArgVal)) (literalTree s) :=
    ⟨⟨[], [], rfl⟩, hr, by simp [positionals], by simp [nameds]⟩
  rcases formatArgs_tree hE [] scope (literalTree s) hd hs with ⟨-, e⟩ | ⟨h, -⟩
  · rw [literalTree_print] at e
    refine ⟨_, e, fun st a => ?_⟩
    have := (treeProg_spec [] scope (literalTree s) hr st a).1
    rw [this]
    exact literalTree_output s scope st []
  · exact absurd hall h


example : doubleBraces (str "a{b}}") = str "a{{b}}}}" ∧
    (∃ x, formatArgs asciiEnv (str "a{{b}}}}") [] (fun _ => ⟨fun _ _ => .done .ok, .panic⟩) = .ok x) := by
  refine ⟨by decide +kernel, ?_⟩
  have e : str "a{{b}}}}" = doubleBraces (str "a{b}}") := by decide +kernel
  obtain ⟨x, h, -⟩ := C33_literal_text asciiEnv_lawful (str "a{b}}") (fun _ => ⟨fun _ _ => .done .ok, .panic⟩)
  rw [e]
  exact ⟨x, h⟩

end Stylish.Props
