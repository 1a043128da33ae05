import Verif.Model.InFormatter
import Verif.Model.Ansi
import Verif.Model.Html
import Verif.Model.Plain
import Verif.Spec.Text
import Verif.Spec.Sink
/-
Two streams that answer alike get the same calls from a writer.
-/

namespace Stylish

open Spec

/-- How something ended, without what it returned. -/
def Res.outcome {E A : Type} : Res E A → Res E Unit
  | .ok _ => .ok ()
  | .err e => .err e
  | .panic => .panic
  | .diverge => .diverge

/-- `y` does what `x` does on related states, until it fails: then `F` tells what was done so far. What `x` does only
adds to its state (`le`). -/
def SameAnswers {S T E A : Type} (le : S → S → Prop) (R : S → T → Prop) (F : S → Res E Unit → T → Prop)
    (x : Act S E A) (y : Act T E A) : Prop :=
  (∀ s, le s (x s).2) ∧ ∀ s t, R s t → ((x s).1 = (y t).1 ∧ R (x s).2 (y t).2) ∨
    ((y t).1.outcome ≠ .ok () ∧ F (x s).2 (y t).1.outcome (y t).2)

/-- `F` and `le` fit. -/
structure AddsUp {S T E : Type} (le : S → S → Prop) (F : S → Res E Unit → T → Prop) : Prop where
  refl : ∀ s, le s s
  trans : ∀ a b c, le a b → le b c → le a c
  later : ∀ a b r t, F a r t → le a b → F b r t

namespace SameAnswers
variable {S T E A B : Type} {le : S → S → Prop} {R : S → T → Prop} {F : S → Res E Unit → T → Prop} (hF : AddsUp le F)
include hF

theorem pure (a : A) : SameAnswers le R F (Pure.pure a : Act S E A) (Pure.pure a : Act T E A) :=
  ⟨hF.refl, fun _ _ h => .inl ⟨rfl, h⟩⟩

theorem bind {x : Act S E A} {y : Act T E A} {f : A → Act S E B} {g : A → Act T E B} (h : SameAnswers le R F x y)
    (hf : ∀ a, SameAnswers le R F (f a) (g a)) : SameAnswers le R F (x >>= f) (y >>= g) := by
  have up : ∀ s, le (x s).2 ((x >>= f) s).2 := by
    intro s
    rw [Act.bind_apply]
    rcases x s with ⟨r, s'⟩
    cases r with
    | ok a => exact (hf a).1 s'
    | err e => exact hF.refl _
    | panic => exact hF.refl _
    | diverge => exact hF.refl _
  refine ⟨fun s => hF.trans _ _ _ (h.1 s) (up s), fun s t hst => ?_⟩
  have u := up s
  rcases h.2 s t hst with ⟨h1, h2⟩ | ⟨h1, h2⟩
  · rw [Act.bind_apply, Act.bind_apply]
    rcases hx : x s with ⟨r, s'⟩
    rcases hy : y t with ⟨r', t'⟩
    rw [hx, hy] at h1 h2
    simp only at h1 h2
    subst h1
    cases r with
    | ok a => exact (hf a).2 _ _ h2
    | err e => exact .inl ⟨rfl, h2⟩
    | panic => exact .inl ⟨rfl, h2⟩
    | diverge => exact .inl ⟨rfl, h2⟩
  · refine .inr ?_
    have h3 := hF.later _ _ _ _ h2 u
    rw [Act.bind_apply (x := y)]
    rcases hy : y t with ⟨r', t'⟩
    rw [hy] at h1 h3
    cases r' with
    | ok a => exact absurd rfl h1
    | err e => exact ⟨h1, h3⟩
    | panic => exact ⟨h1, h3⟩
    | diverge => exact ⟨h1, h3⟩

end SameAnswers

section
variable {S T : Type} [FmtWrite S] [FmtWrite T] {le : S → S → Prop} {R : S → T → Prop}
  {F : S → Res FmtError Unit → T → Prop} (hF : AddsUp le F)
  (hR : ∀ s, SameAnswers le R F (FmtWrite.writeStr s : Act S FmtError Unit) (FmtWrite.writeStr s))
include hF hR

namespace Ansi

/-- Related streams, same style. -/
def Rel (R : S → T → Prop) (a : Ansi S) (b : Ansi T) : Prop := R a.inner b.inner ∧ a.current = b.current
/-- More was done on the stream. -/
def Le (le : S → S → Prop) (a b : Ansi S) : Prop := le a.inner b.inner
/-- What was done on the stream. -/
def Fail (F : S → Res FmtError Unit → T → Prop) (a : Ansi S) (r : Res FmtError Unit) (b : Ansi T) : Prop :=
  F a.inner r b.inner

omit [FmtWrite S] [FmtWrite T] hR in
theorem fits : AddsUp (Le le) (Fail F) :=
  ⟨fun _ => hF.refl _, fun _ _ _ => hF.trans _ _ _, fun _ _ _ _ => hF.later _ _ _ _⟩

omit hF in
theorem put_alike (s : Str) : SameAnswers (Le le) (Rel R) (Fail F) (put s : Act (Ansi S) FmtError Unit) (put s) := by
  refine ⟨fun a => (hR s).1 a.inner, ?_⟩
  rintro ⟨a, c⟩ ⟨b, d⟩ ⟨h, hc⟩
  rcases (hR s).2 a b h with ⟨h1, h2⟩ | h
  · exact .inl ⟨h1, h2, hc⟩
  · exact .inr h

theorem putRest_alike (l : List Str) : SameAnswers (Le le) (Rel R) (Fail F) (putRest l : Act (Ansi S) FmtError Unit) (putRest l) := by
  induction l with
  | nil => exact .pure (fits hF) ()
  | cons s l ih => exact .bind (fits hF) (put_alike hR _) fun _ => .bind (fits hF) (put_alike hR _) fun _ => ih

theorem switch_alike (c d : Style) : SameAnswers (Le le) (Rel R) (Fail F) (switchStyle c d : Act (Ansi S) FmtError Unit) (switchStyle c d) := by
  unfold switchStyle
  by_cases h : c ≠ d ∧ d = Style.default
  · rw [if_pos h, if_pos h]; exact put_alike hR _
  · rw [if_neg h, if_neg h]
    cases segments (d.diffFrom c) with
    | nil => exact .pure (fits hF) ()
    | cons s l =>
      exact .bind (fits hF) (put_alike hR _) fun _ => .bind (fits hF) (put_alike hR _) fun _ =>
        .bind (fits hF) (putRest_alike hF hR _) fun _ => put_alike hR _

omit [FmtWrite S] [FmtWrite T] hR in
theorem set_alike (c : Style) : SameAnswers (Le le) (Rel R) (Fail F) (setCurrent c : Act (Ansi S) FmtError Unit) (setCurrent c) :=
  ⟨fun _ => hF.refl _, fun _ _ h => .inl ⟨rfl, h.1, rfl⟩⟩

omit [FmtWrite S] [FmtWrite T] hR in
theorem get_alike : SameAnswers (Le le) (Rel R) (Fail F) (getCurrent : Act (Ansi S) FmtError Style) getCurrent :=
  ⟨fun _ => hF.refl _, fun a b h => .inl ⟨by show Res.ok a.current = Res.ok b.current; rw [h.2], h⟩⟩

theorem writeStr_alike (s : Str) (st : Style) :
    SameAnswers (Le le) (Rel R) (Fail F) (Write.writeStr s st : Act (Ansi S) FmtError Unit) (Write.writeStr s st) := by
  show SameAnswers (Le le) (Rel R) (Fail F) (Ansi.writeStr s st) (Ansi.writeStr s st)
  unfold Ansi.writeStr
  cases h : s.isEmpty with
  | true => exact .pure (fits hF) ()
  | false =>
      exact .bind (fits hF) (get_alike hF) fun _ => .bind (fits hF) (switch_alike hF hR _ _) fun _ => .bind (fits hF) (set_alike hF _) fun _ =>
        .bind (fits hF) (put_alike hR _) fun _ => .pure (fits hF) ()

theorem finish_alike : SameAnswers (Le le) (Rel R) (Fail F) (finish : Act (Ansi S) FmtError Unit) finish := by
  unfold finish
  refine .bind (fits hF) (get_alike hF) fun c => ?_
  by_cases h : c ≠ Style.default
  · simp only [if_pos h]; exact put_alike hR _
  · simp only [if_neg h]; exact .pure (fits hF) ()

end Ansi

namespace Html

/-- Related streams, same style. -/
def Rel (R : S → T → Prop) (a : Html S) (b : Html T) : Prop := R a.inner b.inner ∧ a.current = b.current
/-- More was done on the stream. -/
def Le (le : S → S → Prop) (a b : Html S) : Prop := le a.inner b.inner
/-- What was done on the stream. -/
def Fail (F : S → Res FmtError Unit → T → Prop) (a : Html S) (r : Res FmtError Unit) (b : Html T) : Prop :=
  F a.inner r b.inner

omit [FmtWrite S] [FmtWrite T] hR in
theorem fits : AddsUp (Le le) (Fail F) :=
  ⟨fun _ => hF.refl _, fun _ _ _ => hF.trans _ _ _, fun _ _ _ _ => hF.later _ _ _ _⟩

omit hF in
theorem put_alike (s : Str) : SameAnswers (Le le) (Rel R) (Fail F) (put s : Act (Html S) FmtError Unit) (put s) := by
  refine ⟨fun a => (hR s).1 a.inner, ?_⟩
  rintro ⟨a, c⟩ ⟨b, d⟩ ⟨h, hc⟩
  rcases (hR s).2 a b h with ⟨h1, h2⟩ | h
  · exact .inl ⟨h1, h2, hc⟩
  · exact .inr h

theorem putRest_alike (l : List Str) : SameAnswers (Le le) (Rel R) (Fail F) (putRest l : Act (Html S) FmtError Unit) (putRest l) := by
  induction l with
  | nil => exact .pure (fits hF) ()
  | cons s l ih => exact .bind (fits hF) (put_alike hR _) fun _ => .bind (fits hF) (put_alike hR _) fun _ => ih

theorem close_alike (c : Style) : SameAnswers (Le le) (Rel R) (Fail F) (closeSpan c : Act (Html S) FmtError Unit) (closeSpan c) := by
  unfold closeSpan
  by_cases h : c ≠ Style.default
  · rw [if_pos h, if_pos h]; exact put_alike hR _
  · rw [if_neg h, if_neg h]; exact .pure (fits hF) ()

theorem segments_alike (c : Style) (l : List Str) :
    SameAnswers (Le le) (Rel R) (Fail F) (putSegments c l : Act (Html S) FmtError Unit) (putSegments c l) := by
  cases l with
  | nil => exact .pure (fits hF) ()
  | cons s l =>
      exact .bind (fits hF) (close_alike hF hR _) fun _ => .bind (fits hF) (put_alike hR _) fun _ => .bind (fits hF) (put_alike hR _) fun _ =>
        .bind (fits hF) (putRest_alike hF hR _) fun _ => put_alike hR _

theorem escaped_alike (s : Str) (run : Str) :
    SameAnswers (Le le) (Rel R) (Fail F) (putEscaped run s : Act (Html S) FmtError Unit) (putEscaped run s) := by
  induction s generalizing run with
  | nil => exact put_alike hR _
  | cons c s ih =>
    unfold putEscaped
    cases htmlEntity c with
    | none => exact ih _
    | some e => exact .bind (fits hF) (put_alike hR _) fun _ => .bind (fits hF) (put_alike hR _) fun _ => ih _

theorem switch_alike (c d : Style) : SameAnswers (Le le) (Rel R) (Fail F) (switchStyle c d : Act (Html S) FmtError Unit) (switchStyle c d) := by
  unfold switchStyle
  by_cases h : d = Style.default
  · rw [if_pos h, if_pos h]; exact close_alike hF hR _
  · rw [if_neg h, if_neg h]
    by_cases h' : d ≠ c
    · rw [if_pos h', if_pos h']; exact segments_alike hF hR _ _
    · rw [if_neg h', if_neg h']; exact .pure (fits hF) ()

omit [FmtWrite S] [FmtWrite T] hR in
theorem set_alike (c : Style) : SameAnswers (Le le) (Rel R) (Fail F) (setCurrent c : Act (Html S) FmtError Unit) (setCurrent c) :=
  ⟨fun _ => hF.refl _, fun _ _ h => .inl ⟨rfl, h.1, rfl⟩⟩

omit [FmtWrite S] [FmtWrite T] hR in
theorem get_alike : SameAnswers (Le le) (Rel R) (Fail F) (getCurrent : Act (Html S) FmtError Style) getCurrent :=
  ⟨fun _ => hF.refl _, fun a b h => .inl ⟨by show Res.ok a.current = Res.ok b.current; rw [h.2], h⟩⟩

theorem writeStr_alike (s : Str) (st : Style) :
    SameAnswers (Le le) (Rel R) (Fail F) (Write.writeStr s st : Act (Html S) FmtError Unit) (Write.writeStr s st) := by
  show SameAnswers (Le le) (Rel R) (Fail F) (Html.writeStr s st) (Html.writeStr s st)
  unfold Html.writeStr
  cases h : s.isEmpty with
  | true => exact .pure (fits hF) ()
  | false =>
      exact .bind (fits hF) (get_alike hF) fun _ => .bind (fits hF) (switch_alike hF hR _ _) fun _ => .bind (fits hF) (set_alike hF _) fun _ =>
        .bind (fits hF) (escaped_alike hF hR _ _) fun _ => .pure (fits hF) ()

theorem finish_alike : SameAnswers (Le le) (Rel R) (Fail F) (finish : Act (Html S) FmtError Unit) finish :=
  .bind (fits hF) (get_alike hF) fun c => close_alike hF hR c

end Html

omit hF in
/-- The same for `Plain`. -/
theorem Plain.writeStr_alike (s : Str) (st : Style) :
    SameAnswers (fun (a b : Plain S) => le a.inner b.inner) (fun (a : Plain S) (b : Plain T) => R a.inner b.inner)
      (fun a r b => F a.inner r b.inner) (Write.writeStr s st : Act (Plain S) FmtError Unit) (Write.writeStr s st) := by
  refine ⟨fun a => (hR s).1 a.inner, ?_⟩
  rintro ⟨a⟩ ⟨b⟩ h
  exact (hR s).2 a b h

end

/-- Writes on writers that answer alike. -/
theorem chunks_alike {V W : Type} [Write V] [Write W] {le : V → V → Prop} {R : V → W → Prop}
    {F : V → Res FmtError Unit → W → Prop} (hF : AddsUp le F)
    (hR : ∀ s st, SameAnswers le R F (Write.writeStr s st : Act V FmtError Unit) (Write.writeStr s st)) (chs : List Chunk) :
    SameAnswers le R F (writeChunks chs : Act V FmtError Unit) (writeChunks chs) := by
  induction chs with
  | nil => exact .pure hF ()
  | cons ch chs ih => exact .bind hF (hR _ _) fun _ => ih

end Stylish
