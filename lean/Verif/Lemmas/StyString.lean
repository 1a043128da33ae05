import Verif.Lemmas.Emits
import Verif.Lemmas.Formatter
import Verif.Model.StyString
/-
Lemmas about `stylish::String` and byte-offset slicing.
-/

namespace Stylish

open Spec

@[simp] theorem strLen_nil : strLen [] = 0 := rfl
@[simp] theorem strLen_cons (c : Char) (s : Str) : strLen (c :: s) = c.utf8Size + strLen s := by
  simp [strLen]
@[simp] theorem strLen_append (s t : Str) : strLen (s ++ t) = strLen s + strLen t := by
  induction s with
  | nil => simp
  | cons c s ih => simp [ih, Nat.add_assoc]

theorem dropBytes_zero (s : Str) : dropBytes 0 s = some s := by
  cases s <;> simp [dropBytes]

theorem takeBytes_zero (s : Str) : takeBytes 0 s = some [] := by
  cases s <;> simp [takeBytes]

theorem dropBytes_strLen (pre rest : Str) : dropBytes (strLen pre) (pre ++ rest) = some rest := by
  induction pre with
  | nil => exact dropBytes_zero rest
  | cons c pre ih =>
    have hpos := c.utf8Size_pos
    obtain ⟨n, hn⟩ : ∃ n, strLen (c :: pre) = n + 1 := ⟨strLen (c :: pre) - 1, by simp; omega⟩
    rw [hn, List.cons_append, dropBytes, ← hn]
    have hle : c.utf8Size ≤ strLen (c :: pre) := by simp
    rw [if_pos hle]
    have : strLen (c :: pre) - c.utf8Size = strLen pre := by simp
    rw [this, ih]

theorem takeBytes_strLen (s post : Str) : takeBytes (strLen s) (s ++ post) = some s := by
  induction s with
  | nil => exact takeBytes_zero post
  | cons c s ih =>
    have hpos := c.utf8Size_pos
    obtain ⟨n, hn⟩ : ∃ n, strLen (c :: s) = n + 1 := ⟨strLen (c :: s) - 1, by simp; omega⟩
    rw [hn, List.cons_append, takeBytes, ← hn]
    have hle : c.utf8Size ≤ strLen (c :: s) := by simp
    rw [if_pos hle]
    have : strLen (c :: s) - c.utf8Size = strLen s := by simp
    rw [this, ih]
    rfl

theorem strSlice_middle (pre s post : Str) :
    strSlice (pre ++ s ++ post) (strLen pre) (strLen pre + strLen s) = some s := by
  simp only [strSlice]
  rw [if_pos (Nat.le_add_right _ _), List.append_assoc, dropBytes_strLen]
  simp [takeBytes_strLen]

theorem getLast?_split {α : Type} {l : List α} {x : α} (h : l.getLast? = some x) :
    l = l.dropLast ++ [x] := by
  have hne : l ≠ [] := by rintro rfl; simp at h
  have h1 := List.dropLast_concat_getLast hne
  rw [List.getLast?_eq_some_getLast hne] at h
  rw [← Option.some.inj h, h1]

namespace StyString

/-- The styles list of a string made of the given segments, the first starting at offset `n`. -/
def offsets : Nat → List Chunk → List (Nat × Style)
  | _, [] => []
  | n, (s, st) :: rest => (n, st) :: offsets (n + strLen s) rest

/-- The text of a list of segments. -/
def segText (segs : List Chunk) : Str := segs.flatMap Prod.fst

@[simp] theorem segText_nil : segText [] = [] := rfl
@[simp] theorem segText_cons (s : Str) (st : Style) (l : List Chunk) :
    segText ((s, st) :: l) = s ++ segText l := rfl
@[simp] theorem segText_append (l m : List Chunk) : segText (l ++ m) = segText l ++ segText m := by
  simp [segText]

theorem offsets_append (n : Nat) (l m : List Chunk) :
    offsets n (l ++ m) = offsets n l ++ offsets (n + strLen (segText l)) m := by
  induction l generalizing n with
  | nil => simp [offsets]
  | cons x l ih => 
    obtain ⟨s, st⟩ := x
    simp [offsets, ih, Nat.add_assoc]

/-- The attributed string with the given segments. -/
def ofSegs (segs : List Chunk) : StyString := ⟨segText segs, offsets 0 segs⟩

/-- Appending a write to the segments: extend the last one if the style is the same. -/
def push (segs : List Chunk) (s : Str) (st : Style) : List Chunk :=
  match segs.getLast? with
  | none => [(s, st)]
  | some (u, st') => if st = st' then segs.dropLast ++ [(u ++ s, st)] else segs ++ [(s, st)]

theorem offsets_getLast_style (n : Nat) (segs : List Chunk) :
    (offsets n segs).getLast?.map Prod.snd = segs.getLast?.map Prod.snd := by
  induction segs generalizing n with
  | nil => rfl
  | cons x l ih =>
    obtain ⟨s, st⟩ := x
    cases l with
    | nil => rfl
    | cons y l => 
      have := ih (n + strLen s)
      obtain ⟨s', st'⟩ := y
      simp only [offsets, List.getLast?_cons_cons] at this ⊢
      exact this

theorem writeStr_push (segs : List Chunk) (s : Str) (st : Style) :
    writeStr s st (ofSegs segs) = (.ok (), ofSegs (push segs s st)) := by
  simp only [writeStr, ofSegs, offsets_getLast_style, push]
  rcases hl : segs.getLast? with _ | ⟨u, st'⟩
  · have : segs = [] := by simpa using hl
    subst this
    simp [offsets, segText]
  · have hsplit : segs = segs.dropLast ++ [(u, st')] := getLast?_split hl
    by_cases h : st = st'
    · subst h
      simp only [Option.map_some, ne_eq, not_true_eq_false, if_false, if_true]
      congr 2
      · conv => lhs; rw [hsplit]
        simp
      · conv => lhs; rw [hsplit]
        simp [offsets_append, offsets]
    · have h' : some st ≠ Option.map Prod.snd (some (u, st')) := by simpa using h
      rw [if_pos h']
      simp only [if_neg h]
      congr 2
      · simp
      · simp [offsets_append, offsets]

theorem flatten_push (segs : List Chunk) (s : Str) (st : Style) :
    flatten (push segs s st) = flatten segs ++ paint s st := by
  simp only [push]
  rcases hl : segs.getLast? with _ | ⟨u, st'⟩
  · have : segs = [] := by simpa using hl
    subst this
    simp
  · have hsplit : segs = segs.dropLast ++ [(u, st')] := getLast?_split hl
    by_cases h : st = st'
    · subst h
      simp only [if_true]
      conv => rhs; rw [hsplit]
      simp [paint]
    · simp [if_neg h]

/-- Consecutive segments have different styles. -/
def Alternating : List Chunk → Prop
  | [] => True
  | [_] => True
  | a :: b :: l => a.2 ≠ b.2 ∧ Alternating (b :: l)

theorem alternating_snoc (l : List Chunk) (x : Chunk) (h : Alternating l)
    (hx : ∀ y, l.getLast? = some y → y.2 ≠ x.2) : Alternating (l ++ [x]) := by
  induction l with
  | nil => trivial
  | cons a l ih =>
    cases l with
    | nil => exact ⟨hx a rfl, trivial⟩
    | cons b l =>
      exact ⟨h.1, ih h.2 (by simpa using hx)⟩

theorem alternating_dropLast (l : List Chunk) (h : Alternating l) : Alternating l.dropLast := by
  induction l with
  | nil => trivial
  | cons a l ih =>
    cases l with
    | nil => trivial
    | cons b l =>
      cases l with
      | nil => trivial
      | cons c l => exact ⟨h.1, ih h.2⟩

theorem alternating_last (l : List Chunk) (x : Chunk) (h : Alternating (l ++ [x])) :
    ∀ y, l.getLast? = some y → y.2 ≠ x.2 := by
  induction l with
  | nil => simp
  | cons a l ih =>
    cases l with
    | nil => simpa using h.1
    | cons b l => simpa using ih h.2

theorem alternating_push (segs : List Chunk) (s : Str) (st : Style) (h : Alternating segs) :
    Alternating (push segs s st) := by
  simp only [push]
  rcases hl : segs.getLast? with _ | ⟨u, st'⟩
  · trivial
  · have hsplit : segs = segs.dropLast ++ [(u, st')] := getLast?_split hl
    by_cases he : st = st'
    · subst he
      simp only [if_true]
      refine alternating_snoc _ _ (alternating_dropLast _ h) ?_
      rw [hsplit] at h
      exact fun y hy => alternating_last _ _ h y hy
    · simp only [if_neg he]
      refine alternating_snoc _ _ h ?_
      intro y hy
      rw [hl] at hy
      cases hy
      exact fun e => he e.symm

theorem writeChunks_ofSegs (chs segs : List Chunk) (halt : Alternating segs) :
    ∃ segs', writeChunks chs (ofSegs segs) = (.ok (), ofSegs segs') ∧
      flatten segs' = flatten segs ++ flatten chs ∧ Alternating segs' := by
  induction chs generalizing segs with
  | nil => exact ⟨segs, rfl, by simp, halt⟩
  | cons ch chs ih =>
    obtain ⟨segs', h1, h2, h3⟩ := ih (push segs ch.1 ch.2) (alternating_push _ _ _ halt)
    refine ⟨segs', ?_, ?_, h3⟩
    · have h0 : Write.writeStr ch.1 ch.2 (ofSegs segs) = (.ok (), ofSegs (push segs ch.1 ch.2)) :=
        writeStr_push segs ch.1 ch.2
      rw [writeChunks_cons, h0]
      exact h1
    · rw [h2, flatten_push]; simp

theorem accepting : Accepting StyString := fun _ _ _ => rfl

/-- Displaying a string made of segments writes exactly these segments, each with its own style. -/
theorem fmtFrom_offsets (pre : Str) (segs : List Chunk) (style : Style) (args : FormatterArgs) :
    writes (fmtFrom (pre ++ segText segs) (offsets (strLen pre) segs)) style args =
      (segs, .ok ()) := by
  induction segs generalizing pre with
  | nil => rfl
  | cons x l ih =>
    obtain ⟨s, st⟩ := x
    have hunfold : fmtFrom (pre ++ segText ((s, st) :: l)) (offsets (strLen pre) ((s, st) :: l)) =
        match strSlice (pre ++ segText ((s, st) :: l)) (strLen pre) (strLen pre + strLen s) with
        | none => .panic
        | some part => .within (.of st) (.writeStr part .done)
            (Disp.try_ (fmtFrom (pre ++ segText ((s, st) :: l)) (offsets (strLen pre + strLen s) l))) := by
      cases l with
      | nil => simp [offsets, fmtFrom]; rfl
      | cons y l => obtain ⟨u, su⟩ := y; rfl
    rw [hunfold]
    have hslice : strSlice (pre ++ segText ((s, st) :: l)) (strLen pre) (strLen pre + strLen s) =
        some s := by
      have := strSlice_middle pre s (segText l)
      simpa using this
    rw [hslice]
    have h2 := ih (pre ++ s)
    simp only [strLen_append, List.append_assoc] at h2
    simp only [writes, Disp.try_, segText_cons, h2]
    rfl

theorem display_ofSegs (segs : List Chunk) (style : Style) (args : FormatterArgs) :
    writes (Display.fmt (ofSegs segs)) style args = (segs, .ok ()) := by
  exact fmtFrom_offsets [] segs style args

theorem propagates_fmtFrom (string : Str) (styles : List (Nat × Style)) :
    Propagates (fmtFrom string styles) := by
  induction styles with
  | nil => trivial
  | cons x l ih =>
    obtain ⟨n, st⟩ := x
    unfold fmtFrom
    simp only
    split
    · trivial
    · exact ⟨⟨rfl, trivial⟩, rfl, ih⟩

end StyString

end Stylish
