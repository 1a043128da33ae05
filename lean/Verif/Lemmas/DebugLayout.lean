import Verif.Lemmas.Debug
/-
For C79: how `{:#?}` lays out its text.
-/

namespace Stylish.DebugText

open Spec.Debug

theorem run_append (l : Layout) (a b : Str) : Layout.run l (a ++ b) = (Layout.run l a).bind fun l' => Layout.run l' b := by
  induction a generalizing l with
  | nil => rfl
  | cons c a ih =>
    simp only [List.cons_append, Layout.run]
    cases l.step c with
    | none => rfl
    | some l' => exact ih l'

/-- The same place in the padded text. -/
def Layout.deeper (l : Layout) : Layout := ⟨l.start.map (· + 4), l.depth + 1⟩

theorem inLine_deeper (d : Nat) (c : Char) (l : Layout) (h : Layout.inLine d c = some l) (hn : c ≠ '\n') :
    Layout.inLine (d + 1) c = some (Layout.deeper l) := by
  unfold Layout.inLine at h ⊢
  split
  · rename_i hc
    rw [if_pos hc] at h
    obtain rfl := Option.some.inj h
    rfl
  · rename_i hc
    rw [if_neg hc] at h
    split
    · rename_i hc
      rw [if_pos hc] at h
      cases d with
      | zero => simp at h
      | succ d => obtain rfl := Option.some.inj h; rfl
    · rename_i hc
      rw [if_neg hc, if_neg hn] at h
      obtain rfl := Option.some.inj h
      rfl

theorem step_deeper (l : Layout) (c : Char) (l' : Layout) (h : l.step c = some l') (hn : c ≠ '\n') :
    (Layout.deeper l).step c = some (Layout.deeper l') := by
  obtain ⟨_ | n, d⟩ := l
  · exact inLine_deeper d c l' h hn
  · simp only [Layout.deeper, Option.map_some, Layout.step] at h ⊢
    split
    · rename_i hc
      rw [if_pos hc] at h
      obtain rfl := Option.some.inj h
      simp only [Option.map_some]
    · rename_i hc
      rw [if_neg hc] at h
      split
      · rename_i hc
        rw [if_pos hc] at h
        split at h
        · rw [if_pos (by omega)]
          exact inLine_deeper d c l' h hn
        · simp at h
      · rename_i hc
        rw [if_neg hc] at h
        split at h
        · rw [if_pos (by omega)]
          exact inLine_deeper d c l' h hn
        · simp at h

theorem step_newline (l : Layout) (l' : Layout) (h : l.step '\n' = some l') :
    l' = ⟨some 0, l.depth⟩ ∧ (Layout.deeper l).step '\n' = some ⟨some 0, l.depth + 1⟩ := by
  obtain ⟨_ | n, d⟩ := l
  · have h' : some (Layout.mk (some 0) d) = some l' := h
    exact ⟨(Option.some.inj h').symm, rfl⟩
  · have hs : ∀ n d, Layout.step ⟨some n, d⟩ '\n' = if n = 4 * d then some ⟨some 0, d⟩ else none := fun _ _ => rfl
    rw [hs] at h
    split at h
    · refine ⟨(Option.some.inj h).symm, ?_⟩
      show Layout.step ⟨some (n + 4), d + 1⟩ '\n' = _
      rw [hs, if_pos (by omega)]
    · simp at h

theorem four (n d : Nat) (s : Str) : Layout.run ⟨some n, d⟩ (str "    " ++ s) = Layout.run ⟨some (n + 4), d⟩ s := rfl

/-- Padding a text that is laid out. -/
theorem run_pad (s : Str) (start : Bool) (l l' : Layout) (h : Layout.run l s = some l')
    (hs : start = true → l.start = some 0) :
    ∃ l'', Layout.run (if start then ⟨some 0, l.depth + 1⟩ else Layout.deeper l) (padLines start s) = some l'' ∧
      (s ≠ [] → l'' = if s.getLast? = some '\n' then ⟨some 0, l'.depth + 1⟩ else Layout.deeper l') := by
  induction s generalizing start l with
  | nil => exact ⟨_, rfl, fun h => absurd rfl h⟩
  | cons c cs ih =>
    simp only [Layout.run] at h
    cases hc : l.step c with
    | none => simp [hc] at h
    | some l1 =>
      simp only [hc] at h
      have e : Layout.run (if start then ⟨some 0, l.depth + 1⟩ else Layout.deeper l) (padLines start (c :: cs)) =
          Layout.run (Layout.deeper l) (c :: padLines (c = '\n') cs) := by
        cases start with
        | false => rfl
        | true =>
          simp only [padLines, if_true]
          rw [four]
          obtain ⟨st, d⟩ := l
          obtain rfl : st = some 0 := hs rfl
          rfl
      rw [e]
      by_cases hn : c = '\n'
      · subst hn
        obtain ⟨h1, h2⟩ := step_newline l l1 hc
        obtain ⟨l'', h3, h4⟩ := ih true l1 h (by intro _; rw [h1])
        refine ⟨l'', ?_, ?_⟩
        · simp only [Layout.run, h2]
          simpa [h1] using h3
        · intro _
          cases cs with
          | nil =>
            simp only [padLines, Layout.run] at h3 h
            obtain rfl := Option.some.inj h
            simp only [List.getLast?_singleton, if_true]
            simpa using (Option.some.inj h3).symm
          | cons c' cs =>
            rw [List.getLast?_cons_cons]
            exact h4 (by simp)
      · obtain ⟨l'', h3, h4⟩ := ih false l1 h (by simp)
        refine ⟨l'', ?_, ?_⟩
        · simp only [Layout.run, step_deeper l c l1 hc hn]
          simpa [hn] using h3
        · intro _
          cases cs with
          | nil =>
            simp only [padLines, Layout.run] at h3 h
            obtain rfl := Option.some.inj h
            simp only [List.getLast?_singleton, Option.some.injEq, hn, if_false]
            simpa using (Option.some.inj h3).symm
          | cons c' cs =>
            rw [List.getLast?_cons_cons]
            exact h4 (by simp)

/-- Padding whole lines. -/
theorem run_padded (s : Str) (d : Nat) (h : Layout.run ⟨some 0, d⟩ (s ++ str ",\n") = some ⟨some 0, d⟩) :
    Layout.run ⟨some 0, d + 1⟩ (padLines true (s ++ str ",\n")) = some ⟨some 0, d + 1⟩ := by
  obtain ⟨l, h1, h2⟩ := run_pad _ true _ _ h (fun _ => rfl)
  have h3 := h2 (by simp [str])
  rw [if_pos (by simp [str])] at h3
  rw [if_pos rfl] at h1
  rw [h1, h3]

theorem inLine_word (d : Nat) (c : Char) (h : isWord c = true) : Layout.inLine d c = some ⟨none, d⟩ := by
  have h1 : ¬(c = '(' ∨ c = '{') := by rintro (rfl | rfl) <;> revert h <;> decide
  have h2 : ¬(c = ')' ∨ c = '}') := by rintro (rfl | rfl) <;> revert h <;> decide
  have h3 : ¬(c = '\n') := by rintro rfl; revert h; decide
  rw [Layout.inLine.eq_def, if_neg h1, if_neg h2, if_neg h3]

theorem run_word (d : Nat) (w : Str) (h : ∀ c ∈ w, isWord c = true) : Layout.run ⟨none, d⟩ w = some ⟨none, d⟩ := by
  induction w with
  | nil => rfl
  | cons c w ih =>
    simp only [Layout.run, Layout.step, inLine_word d c (h c (by simp))]
    exact ih (fun c hc => h c (by simp [hc]))

/-- A place where a value can be written at depth `d`. -/
def Ready (l : Layout) (d : Nat) : Prop := l = ⟨none, d⟩ ∨ (l = ⟨some 0, 0⟩ ∧ d = 0)

theorem run_leaf (l : Layout) (d : Nat) (hl : Ready l d) (w s : Str) (hw : IsWord w) :
    Layout.run l (w ++ s) = Layout.run ⟨none, d⟩ s := by
  rw [run_append]
  have : Layout.run l w = some ⟨none, d⟩ := by
    rcases hl with rfl | ⟨rfl, rfl⟩
    · exact run_word d w hw.2
    · cases w with
      | nil => exact absurd rfl hw.1
      | cons c w =>
        have hc := hw.2 c (by simp)
        have h1 : ¬(c = ' ') := by rintro rfl; revert hc; decide
        have h2 : ¬(c = ')' ∨ c = '}') := by rintro (rfl | rfl) <;> revert hc <;> decide
        simp only [Layout.run, Layout.step, if_neg h1, if_neg h2, inLine_word 0 c hc, if_true]
        exact run_word 0 w (fun c hc => hw.2 c (by simp [hc]))
  rw [this]
  rfl

theorem run_open (d : Nat) (s : Str) : Layout.run ⟨none, d⟩ (str "(\n" ++ s) = Layout.run ⟨some 0, d + 1⟩ s := rfl
theorem run_brace (d : Nat) (s : Str) : Layout.run ⟨none, d⟩ (str " {\n" ++ s) = Layout.run ⟨some 0, d + 1⟩ s := rfl
theorem run_comma (d : Nat) : Layout.run ⟨none, d⟩ (str ",\n") = some ⟨some 0, d⟩ := rfl
theorem run_colon (d : Nat) (s : Str) : Layout.run ⟨none, d⟩ (str ": " ++ s) = Layout.run ⟨none, d⟩ s := rfl

mutual
theorem run_pretty (v : DebugVal) (h : Named v) (l : Layout) (hl : Ready l 0) :
    Layout.run l v.pretty = some ⟨none, 0⟩ := by
  match v with
  | .unit name => simpa [DebugVal.pretty, Layout.run] using run_leaf l 0 hl name [] h
  | .tuple name field =>
    simp only [DebugVal.pretty, List.append_assoc]
    rw [run_leaf l 0 hl _ _ h.1, run_open, run_append, run_padded field.pretty 0 (by
      rw [run_append, run_pretty field h.2 _ (.inr ⟨rfl, rfl⟩)]
      rfl)]
    rfl
  | .struct name .nil => simpa [DebugVal.pretty, Layout.run] using run_leaf l 0 hl name [] h.1
  | .struct name (.cons f v rest) =>
    simp only [DebugVal.pretty, List.append_assoc]
    rw [run_leaf l 0 hl _ _ h.1, run_brace, run_append, run_fields (.cons f v rest) h.2]
    rfl
  | .nat n => simpa [DebugVal.pretty, Layout.run] using run_leaf l 0 hl _ [] (digits_word n)
  | .bool b => simpa [DebugVal.pretty, Layout.run] using run_leaf l 0 hl _ [] (bool_word b)
theorem run_fields (fs : DebugFields) (h : NamedFields fs) :
    Layout.run ⟨some 0, 1⟩ fs.pretty = some ⟨some 0, 1⟩ := by
  match fs with
  | .nil => rfl
  | .cons name value rest =>
    simp only [DebugFields.pretty]
    have e : name ++ str ": " ++ value.pretty ++ str ",\n" = (name ++ str ": " ++ value.pretty) ++ str ",\n" := by simp
    rw [run_append, e, run_padded _ 0 (by
      rw [List.append_assoc, List.append_assoc, run_leaf _ 0 (.inr ⟨rfl, rfl⟩) _ _ h.1, run_colon, run_append,
        run_pretty value h.2.1 _ (.inl rfl)]
      rfl)]
    exact run_fields rest h.2.2
end

/-! ### Every field on its own line -/

/-- The last character. -/
def lastOf (p : Char) : Str → Char
  | [] => p
  | c :: cs => lastOf c cs

theorem lastOf_append (p : Char) (a b : Str) : lastOf p (a ++ b) = lastOf (lastOf p a) b := by
  induction a generalizing p with
  | nil => rfl
  | cons c a ih => exact ih c

theorem broken_append (p : Char) (a b : Str) : broken p (a ++ b) ↔ broken p a ∧ broken (lastOf p a) b := by
  induction a generalizing p with
  | nil => simp [broken, lastOf]
  | cons c a ih => simp only [List.cons_append, broken, lastOf, ih, and_assoc]

theorem lastOf_pad (s : Str) : ∀ (start : Bool) (p : Char), s ≠ [] → lastOf p (padLines start s) = lastOf p s := by
  induction s with
  | nil => intro _ _ h; exact absurd rfl h
  | cons c cs ih =>
    intro start p _
    rw [padLines, lastOf_append]
    show lastOf c _ = lastOf c _
    cases cs with
    | nil => rfl
    | cons d cs => exact ih _ _ (by simp)

theorem broken_pad (s : Str) : ∀ (start : Bool) (p : Char), (start = true ↔ p = '\n') → broken p s →
    broken p (padLines start s) := by
  induction s with
  | nil => intro _ _ _ _; trivial
  | cons c cs ih =>
    intro start p hp h
    have h2 := ih (c = '\n') c (by simp) h.2
    cases start with
    | false => exact ⟨h.1, h2⟩
    | true =>
      obtain rfl := hp.1 rfl
      have hn : c ≠ '\n' := by rintro rfl; exact absurd h.1 (by decide)
      have e : padLines true (c :: cs) = ' ' :: ' ' :: ' ' :: ' ' :: c :: padLines (c = '\n') cs := by simp [padLines, str]
      rw [e]
      refine ⟨by decide, by decide, by decide, by decide, ⟨?_, fun _ => .inl rfl⟩, h2⟩
      simp [hn]

/-- A character after which a text can go on, but not with a line. -/
def Ends (c : Char) : Prop := ¬(c = '(' ∨ c = '{' ∨ c = ',')

instance (c : Char) : Decidable (Ends c) := inferInstanceAs (Decidable (¬ _))

theorem ends_word (c : Char) (h : isWord c = true) : Ends c := by
  rintro (rfl | rfl | rfl) <;> revert h <;> decide

theorem broken_word (w : Str) (hw : ∀ c ∈ w, isWord c = true) : ∀ p, Ends p → broken p w ∧ Ends (lastOf p w) := by
  induction w with
  | nil => intro p hp; exact ⟨trivial, hp⟩
  | cons c w ih =>
    intro p hp
    have hc := hw c (by simp)
    obtain ⟨h1, h2⟩ := ih (fun c hc => hw c (by simp [hc])) c (ends_word c hc)
    refine ⟨⟨⟨?_, ?_⟩, h1⟩, h2⟩
    · constructor
      · intro h; exact absurd h hp
      · rintro rfl; exact absurd hc (by decide)
    · rintro (rfl | rfl) <;> exact absurd hc (by decide)

theorem broken_lit (p : Char) (hp : Ends p) (c : Char) (s : Str) (hc : c ≠ '\n' ∧ ¬(c = ')' ∨ c = '}')) (h : broken c s) :
    broken p (c :: s) :=
  ⟨⟨⟨fun h => absurd h hp, fun h => absurd h hc.1⟩, fun h => absurd h hc.2⟩, h⟩

/-- Padding whole lines. -/
theorem broken_padded (s : Str) (h : broken '\n' s ∧ Ends (lastOf '\n' s)) :
    broken '\n' (padLines true (s ++ str ",\n")) ∧ lastOf '\n' (padLines true (s ++ str ",\n")) = '\n' := by
  constructor
  · refine broken_pad _ _ _ (by simp) ((broken_append _ _ _).2 ⟨h.1, ?_⟩)
    exact broken_lit _ h.2 ',' ['\n'] (by decide) (by decide)
  · rw [lastOf_pad _ _ _ (by simp [str]), lastOf_append]
    rfl

mutual
theorem broken_pretty (v : DebugVal) (h : Named v) (p : Char) (hp : Ends p) :
    broken p v.pretty ∧ Ends (lastOf p v.pretty) := by
  match v with
  | .unit name => simpa [DebugVal.pretty] using broken_word name h.2 p hp
  | .tuple name field =>
    obtain ⟨h1, h2⟩ := broken_word name h.1.2 p hp
    obtain ⟨h3, h4⟩ := broken_padded field.pretty (broken_pretty field h.2 '\n' (by decide))
    simp only [DebugVal.pretty, List.append_assoc]
    have e : lastOf (lastOf p name) (str "(\n") = '\n' := rfl
    rw [broken_append, broken_append, broken_append, lastOf_append, lastOf_append, lastOf_append, e, h4]
    exact ⟨⟨h1, broken_lit _ h2 '(' ['\n'] (by decide) (by decide), h3, by decide⟩, by decide⟩
  | .struct name .nil => simpa [DebugVal.pretty] using broken_word name h.1.2 p hp
  | .struct name (.cons f v rest) =>
    obtain ⟨h1, h2⟩ := broken_word name h.1.2 p hp
    obtain ⟨h3, h4⟩ := broken_fields (.cons f v rest) h.2
    simp only [DebugVal.pretty, List.append_assoc]
    have e : lastOf (lastOf p name) (str " {\n") = '\n' := rfl
    rw [broken_append, broken_append, broken_append, lastOf_append, lastOf_append, lastOf_append, e, h4]
    exact ⟨⟨h1, broken_lit _ h2 ' ' ['{', '\n'] (by decide) (by decide), h3, by decide⟩, by decide⟩
  | .nat n => simpa [DebugVal.pretty] using broken_word _ (digits_word n).2 p hp
  | .bool b => simpa [DebugVal.pretty] using broken_word _ (bool_word b).2 p hp
theorem broken_fields (fs : DebugFields) (h : NamedFields fs) :
    broken '\n' fs.pretty ∧ lastOf '\n' fs.pretty = '\n' := by
  match fs with
  | .nil => exact ⟨trivial, rfl⟩
  | .cons name value rest =>
    obtain ⟨h1, h2⟩ := broken_word name h.1.2 '\n' (by decide)
    obtain ⟨h3, h4⟩ := broken_pretty value h.2.1 ' ' (by decide)
    obtain ⟨h5, h6⟩ := broken_fields rest h.2.2
    have e : lastOf (lastOf '\n' name) (str ": ") = ' ' := rfl
    obtain ⟨h7, h8⟩ := broken_padded (name ++ str ": " ++ value.pretty) (by
      rw [List.append_assoc, broken_append, broken_append, lastOf_append, lastOf_append, e]
      exact ⟨⟨h1, broken_lit _ h2 ':' [' '] (by decide) (by decide), h3⟩, h4⟩)
    simp only [DebugFields.pretty]
    rw [broken_append, lastOf_append, h8]
    exact ⟨⟨h7, h5⟩, h6⟩
end

/-! ### The same text but for spaces, line breaks and commas -/

theorem bare_append (a b : Str) : bare (a ++ b) = bare a ++ bare b := List.filter_append ..

theorem bare_pad (start : Bool) (s : Str) : bare (padLines start s) = bare s := by
  induction s generalizing start with
  | nil => rfl
  | cons c cs ih =>
    have h4 : bare (str "    ") = [] := by decide +kernel
    have e : ∀ t : Str, bare (c :: t) = bare [c] ++ bare t := fun t => bare_append [c] t
    simp only [padLines]
    rw [bare_append, e (padLines _ cs), e cs, ih]
    cases start
    · rfl
    · rw [if_pos rfl, h4]; rfl

mutual
theorem bare_pretty (v : DebugVal) : bare v.pretty = bare v.plain := by
  match v with
  | .unit _ => rfl
  | .tuple name field =>
    have h1 : bare (str "(\n") = bare (str "(") := by decide +kernel
    have h2 : bare (str ",\n") = [] := by decide +kernel
    simp only [DebugVal.pretty, DebugVal.plain, bare_append, bare_pad, bare_pretty field, h1, h2, List.append_nil]
  | .struct _ .nil => rfl
  | .struct name (.cons f v rest) =>
    have h1 : bare (str " {\n") = bare (str " { ") := by decide +kernel
    have h2 : bare (str "}") = bare (str " }") := by decide +kernel
    simp only [DebugVal.pretty, DebugVal.plain]
    simp only [bare_append, h1, h2, List.append_assoc]
    rw [← List.append_assoc (bare (str " { "))]
    congr 2
    show bare (str " { ") ++ bare (DebugFields.cons f v rest).pretty = bare ((DebugFields.cons f v rest).plain (str " { "))
    have h3 : bare (str ",\n") = [] := by decide +kernel
    simp only [DebugFields.pretty, DebugFields.plain, bare_append, bare_pad, bare_pretty v, bare_fields rest, h3,
      List.append_nil, List.append_assoc]
  | .nat _ => rfl
  | .bool _ => rfl
theorem bare_fields (fs : DebugFields) : bare fs.pretty = bare (fs.plain (str ", ")) := by
  match fs with
  | .nil => rfl
  | .cons name value rest =>
    have h1 : bare (str ", ") = [] := by decide +kernel
    have h2 : bare (str ",\n") = [] := by decide +kernel
    simp only [DebugFields.pretty, DebugFields.plain, bare_append, bare_pad, bare_pretty value, bare_fields rest, h1, h2,
      List.append_nil, List.nil_append]
end

mutual
theorem plain_line (v : DebugVal) (h : Named v) : '\n' ∉ v.plain := by
  have word : ∀ w : Str, IsWord w → '\n' ∉ w := fun w hw hm => absurd (hw.2 _ hm) (by decide)
  match v with
  | .unit name => exact word name h
  | .tuple name field =>
    have h1 := word name h.1
    have h2 := plain_line field h.2
    simp [DebugVal.plain, str, h1, h2]
  | .struct name .nil => exact word name h.1
  | .struct name (.cons f v rest) =>
    have h1 := word name h.1
    have h2 := plain_line_fields (.cons f v rest) h.2 (str " { ") (by decide)
    simp only [DebugVal.plain]
    intro hm
    rcases List.mem_append.1 hm with hm | hm
    · rcases List.mem_append.1 hm with hm | hm
      · exact h1 hm
      · exact h2 hm
    · exact absurd hm (by decide)
  | .nat n => exact word _ (digits_word n)
  | .bool b => exact word _ (bool_word b)
theorem plain_line_fields (fs : DebugFields) (h : NamedFields fs) (before : Str) (hb : '\n' ∉ before) :
    '\n' ∉ fs.plain before := by
  match fs with
  | .nil => simp [DebugFields.plain]
  | .cons name value rest =>
    have h1 : '\n' ∉ name := fun hm => absurd (h.1.2 _ hm) (by decide)
    have h2 := plain_line value h.2.1
    have h3 := plain_line_fields rest h.2.2 (str ", ") (by decide)
    have h4 : '\n' ∉ str ": " := by decide
    simp only [DebugFields.plain, List.mem_append, not_or]
    exact ⟨⟨⟨⟨hb, h1⟩, h4⟩, h2⟩, h3⟩
end

end Stylish.DebugText
