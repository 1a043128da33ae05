import Verif.Spec.Sink
import Verif.Spec.Text
/-
A small program logic: an action emits a string to a sink, or (on failure) a prefix of it.
-/

namespace Stylish

variable {S E A B α σ : Type}

/-- The result `res` of an action run from `s`: on `Ok` exactly `out` was appended to what `del` shows and
`get` is now `fin`; otherwise a prefix of `out` was appended. -/
def Emitted (del : S → List α) (get : S → σ) (s : S) (res : Res E A × S) (out : List α) (fin : σ) :
    Prop :=
  match res with
  | (.ok _, s') => del s' = del s ++ out ∧ get s' = fin
  | (_, s') => ∃ p, p <+: out ∧ del s' = del s ++ p

/-- From every state, the action emits `out` and changes `get` by `g`. -/
def Emits (del : S → List α) (get : S → σ) (x : Act S E A) (out : List α) (g : σ → σ) : Prop :=
  ∀ s, Emitted del get s (x s) out (g (get s))

theorem Emitted.append {del : S → List α} {get : S → σ} {s s' : S} {res : Res E B × S}
    {o1 o2 : List α} {f : σ} (h1 : del s' = del s ++ o1) (h : Emitted del get s' res o2 f) :
    Emitted del get s res (o1 ++ o2) f := by
  obtain ⟨r, s''⟩ := res
  have key : (∃ p, p <+: o2 ∧ del s'' = del s' ++ p) → ∃ p, p <+: o1 ++ o2 ∧ del s'' = del s ++ p := by
    rintro ⟨p, hp, h⟩
    exact ⟨o1 ++ p, by simpa using hp, by rw [h, h1, List.append_assoc]⟩
  cases r with
  | ok b => exact ⟨by rw [h.1, h1, List.append_assoc], h.2⟩
  | err e => exact key h
  | panic => exact key h
  | diverge => exact key h

theorem Emitted.extend {del : S → List α} {get : S → σ} {s : S} {r : Res E A} {s' : S}
    {o1 : List α} {f : σ} (h : Emitted del get s (r, s') o1 f) :
    ∃ p, p <+: o1 ∧ del s' = del s ++ p := by
  cases r with
  | ok a => exact ⟨o1, List.prefix_rfl, h.1⟩
  | err e => exact h
  | panic => exact h
  | diverge => exact h

/-- The action always returns `Ok`. -/
def NeverFails (x : Act S E A) : Prop := ∀ s, ∃ a s', x s = (.ok a, s')

theorem NeverFails.pure (a : A) : NeverFails (pure a : Act S E A) := fun s => ⟨a, s, rfl⟩

theorem NeverFails.bind {x : Act S E A} {f : A → Act S E B} (hx : NeverFails x)
    (hf : ∀ a, NeverFails (f a)) : NeverFails (x >>= f) := by
  intro s
  obtain ⟨a, s', h⟩ := hx s
  obtain ⟨b, s'', h'⟩ := hf a s'
  exact ⟨b, s'', by rw [Act.bind_apply, h]; exact h'⟩

variable {del : S → List α} {get : S → σ}

theorem Emits.pure (a : A) : Emits del get (pure a : Act S E A) [] id :=
  fun s => ⟨by simp, rfl⟩

theorem Emits.bind {x : Act S E A} {f : A → Act S E B} {o1 o2 : List α} {g1 g2 : σ → σ}
    (hx : Emits del get x o1 g1) (hf : ∀ a, Emits del get (f a) o2 g2) :
    Emits del get (x >>= f) (o1 ++ o2) (g2 ∘ g1) := by
  intro s
  rw [Act.bind_apply]
  have h1 := hx s
  rcases hxs : x s with ⟨r, s'⟩
  rw [hxs] at h1
  have key : (∃ p, p <+: o1 ∧ del s' = del s ++ p) → ∃ p, p <+: o1 ++ o2 ∧ del s' = del s ++ p := by
    rintro ⟨p, hp, h⟩
    exact ⟨p, hp.trans (List.prefix_append _ _), h⟩
  cases r with
  | ok a =>
    have h2 := (hf a s').append h1.1
    rw [h1.2] at h2
    exact h2
  | err e => exact key h1
  | panic => exact key h1
  | diverge => exact key h1

theorem Emits.cast {x : Act S E A} {o1 o2 : List α} {g1 g2 : σ → σ} (h : Emits del get x o1 g1)
    (ho : o1 = o2) (hg : ∀ s, g1 s = g2 s) : Emits del get x o2 g2 := by
  subst ho
  have : g1 = g2 := funext hg
  subst this
  exact h

/-! ### Rendering styled text -/

open Spec

/-- Render styled text: before each character `sw` of the style so far and its own style, then the encoded
character. -/
def renderWith {β : Type} (sw : Style → Style → List β) (enc : Char → List β) :
    Style → Styled → List β
  | _, [] => []
  | cur, (c, st) :: rest => sw cur st ++ enc c ++ renderWith sw enc st rest

/-- The style of the last character, or the style so far. -/
def lastStyle : Style → Styled → Style
  | cur, [] => cur
  | _, (_, st) :: rest => lastStyle st rest

theorem lastStyle_append (cur : Style) (t u : Styled) :
    lastStyle cur (t ++ u) = lastStyle (lastStyle cur t) u := by
  induction t generalizing cur with
  | nil => rfl
  | cons x t ih => exact ih _

theorem renderWith_append {β : Type} (sw : Style → Style → List β) (enc : Char → List β)
    (cur : Style) (t u : Styled) :
    renderWith sw enc cur (t ++ u) =
      renderWith sw enc cur t ++ renderWith sw enc (lastStyle cur t) u := by
  induction t generalizing cur with
  | nil => rfl
  | cons x t ih => simp [renderWith, ih, lastStyle]

theorem lastStyle_paint (cur st : Style) (s : Str) :
    lastStyle cur (paint s st) = if s.isEmpty then cur else st := by
  induction s generalizing cur with
  | nil => rfl
  | cons c s ih =>
    simp only [paint, List.map_cons, lastStyle] at ih ⊢
    rw [ih]
    simp

theorem renderWith_paint {β : Type} (sw : Style → Style → List β) (enc : Char → List β)
    (hsw : ∀ st, sw st st = []) (cur st : Style) (s : Str) :
    renderWith sw enc cur (paint s st) = if s.isEmpty then [] else sw cur st ++ s.flatMap enc := by
  induction s generalizing cur with
  | nil => rfl
  | cons c s ih =>
    simp only [paint, List.map_cons, renderWith] at ih ⊢
    rw [ih, hsw]
    cases s <;> simp

@[simp] theorem flatten_nil : flatten [] = [] := rfl
@[simp] theorem flatten_cons (ch : Chunk) (l : List Chunk) :
    flatten (ch :: l) = paint ch.1 ch.2 ++ flatten l := rfl
@[simp] theorem flatten_append (l m : List Chunk) : flatten (l ++ m) = flatten l ++ flatten m := by
  simp [flatten]
@[simp] theorem text_append (t u : Styled) : text (t ++ u) = text t ++ text u := by simp [text]
@[simp] theorem text_paint (s : Str) (st : Style) : text (paint s st) = s := by
  simp [text, paint, Function.comp_def]

end Stylish
