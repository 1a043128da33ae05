import Verif.Lemmas.Emits
import Verif.Lemmas.Formatter
import Verif.Model.Plain
import Verif.Model.Ansi
import Verif.Model.Html
/-
The three string backends render styled text; what they emit depends only on the styled characters.
-/

namespace Stylish

open Spec

/-- The writer renders what it is given: on `Ok` exactly the rendering of the painted string, on failure a
prefix of it. -/
def Renders {W β : Type} [Write W] (del : W → List β) (cur : W → Style)
    (sw : Style → Style → List β) (enc : Char → List β) : Prop :=
  ∀ s st w, Emitted del cur w (Write.writeStr s st w)
    (renderWith sw enc (cur w) (paint s st)) (lastStyle (cur w) (paint s st))

theorem Renders.writeChunks {W β : Type} [Write W] {del : W → List β} {cur : W → Style}
    {sw : Style → Style → List β} {enc : Char → List β} (h : Renders del cur sw enc)
    (chs : List Chunk) (w : W) :
    Emitted del cur w (writeChunks chs w)
      (renderWith sw enc (cur w) (flatten chs)) (lastStyle (cur w) (flatten chs)) := by
  induction chs generalizing w with
  | nil => exact ⟨by simp [renderWith], rfl⟩
  | cons ch chs ih =>
    have h1 := h ch.1 ch.2 w
    rw [writeChunks_cons]
    rcases hw : Write.writeStr ch.1 ch.2 w with ⟨r, w'⟩
    rw [hw] at h1
    simp only [flatten_cons, renderWith_append, lastStyle_append]
    cases r with
    | ok u =>
      have h2 := (ih w').append h1.1
      rw [h1.2] at h2
      exact h2
    | err e =>
      obtain ⟨p, hp, hd⟩ := h1
      exact ⟨p, hp.trans (List.prefix_append _ _), hd⟩
    | panic =>
      obtain ⟨p, hp, hd⟩ := h1
      exact ⟨p, hp.trans (List.prefix_append _ _), hd⟩
    | diverge =>
      obtain ⟨p, hp, hd⟩ := h1
      exact ⟨p, hp.trans (List.prefix_append _ _), hd⟩

theorem Renders.writeChunks_accepting {W β : Type} [Write W] {del : W → List β} {cur : W → Style}
    {sw : Style → Style → List β} {enc : Char → List β} (h : Renders del cur sw enc)
    (hW : Accepting W) (chs : List Chunk) (w : W) :
    del (Spec.writeChunks chs w).2 = del w ++ renderWith sw enc (cur w) (flatten chs) ∧
    cur (Spec.writeChunks chs w).2 = lastStyle (cur w) (flatten chs) := by
  have := h.writeChunks chs w
  rw [Accepting.writeChunks hW] at this
  exact this

/-! ### Plain -/

section Plain
variable {T : Type} [FmtWrite T]

/-- Plain adds no markup. -/
def plainSwitch (_ _ : Style) : Str := []
/-- Plain encodes a character as itself. -/
def plainEnc (c : Char) : Str := [c]

theorem plain_render (cur : Style) (t : Styled) : renderWith plainSwitch plainEnc cur t = text t := by
  induction t generalizing cur with
  | nil => rfl
  | cons x t ih =>
    simp only [renderWith, plainSwitch, plainEnc, ih]
    rfl

theorem plain_accepting (hT : AcceptingSink T) : Accepting (Plain T) := by
  intro s st w
  exact hT s w.inner

theorem plain_writeStr (k : FmtSink T) (s : Str) (st : Style) (w : Plain T) :
    Emitted (fun w : Plain T => k.delivered w.inner) (fun _ => ()) w (Write.writeStr s st w) s () := by
  simp only [Write.writeStr, Plain.onInner]
  rcases h : FmtWrite.writeStr s w.inner with ⟨r, t⟩
  cases r with
  | ok u => exact ⟨k.ok _ _ _ h, rfl⟩
  | err e => exact k.notOk _ _ _ _ h (by simp)
  | panic => exact k.notOk _ _ _ _ h (by simp)
  | diverge => exact k.notOk _ _ _ _ h (by simp)

theorem plain_writeChunks (k : FmtSink T) (chs : List Chunk) (w : Plain T) :
    Emitted (fun w : Plain T => k.delivered w.inner) (fun _ => ()) w (writeChunks chs w)
      (text (flatten chs)) () := by
  induction chs generalizing w with
  | nil => exact ⟨by simp [text], rfl⟩
  | cons ch chs ih =>
    have h1 := plain_writeStr k ch.1 ch.2 w
    rw [writeChunks_cons]
    rcases hw : Write.writeStr ch.1 ch.2 w with ⟨r, w'⟩
    rw [hw] at h1
    simp only [flatten_cons, text_append, text_paint]
    cases r with
    | ok u => exact (ih w').append h1.1
    | err e => obtain ⟨p, hp, hd⟩ := h1; exact ⟨p, hp.trans (List.prefix_append _ _), hd⟩
    | panic => obtain ⟨p, hp, hd⟩ := h1; exact ⟨p, hp.trans (List.prefix_append _ _), hd⟩
    | diverge => obtain ⟨p, hp, hd⟩ := h1; exact ⟨p, hp.trans (List.prefix_append _ _), hd⟩

end Plain

/-! ### Ansi -/

/-- The string of the remaining segments. -/
def ansiRest (l : List Str) : Str := l.flatMap (fun seg => ';' :: seg)

/-- The string of a list of SGR segments. -/
def ansiSegs : List Str → Str
  | [] => []
  | seg :: rest => str "\x1b[" ++ seg ++ ansiRest rest ++ str "m"

/-- The escape sequence from one style to another. -/
def ansiSwitch (current style : Style) : Str :=
  if current ≠ style ∧ style = Style.default then Ansi.resetSeq
  else ansiSegs (Ansi.segments (style.diffFrom current))

theorem diffFrom_self (s : Style) : s.diffFrom s = ⟨none, none, none⟩ := by
  simp [Style.diffFrom, diffField]

theorem ansiSwitch_self (st : Style) : ansiSwitch st st = [] := by
  simp [ansiSwitch, diffFrom_self, Ansi.segments, ansiSegs]

section Ansi
variable {T : Type} [FmtWrite T]

namespace Ansi

theorem put_neverFails (hT : AcceptingSink T) (s : Str) : NeverFails (put (T := T) s) := by
  intro a
  refine ⟨(), { a with inner := (FmtWrite.writeStr s a.inner).2 }, ?_⟩
  simp only [put, onInner]
  have := hT s a.inner
  rcases h : FmtWrite.writeStr s a.inner with ⟨r, t⟩
  rw [h] at this
  simp_all

theorem putRest_neverFails (hT : AcceptingSink T) (l : List Str) : NeverFails (putRest (T := T) l) := by
  induction l with
  | nil => exact NeverFails.pure _
  | cons x l ih =>
    exact (put_neverFails hT _).bind fun _ => (put_neverFails hT _).bind fun _ => ih

theorem putSegments_neverFails (hT : AcceptingSink T) (l : List Str) :
    NeverFails (putSegments (T := T) l) := by
  cases l with
  | nil => exact NeverFails.pure _
  | cons x l =>
    exact (put_neverFails hT _).bind fun _ => (put_neverFails hT _).bind fun _ =>
      (putRest_neverFails hT _).bind fun _ => put_neverFails hT _

theorem switchStyle_neverFails (hT : AcceptingSink T) (c s : Style) :
    NeverFails (switchStyle (T := T) c s) := by
  unfold switchStyle
  split
  · exact put_neverFails hT _
  · exact putSegments_neverFails hT _

theorem writeStr_neverFails (hT : AcceptingSink T) (s : Str) (st : Style) :
    NeverFails (writeStr (T := T) s st) := by
  unfold writeStr
  split
  · exact NeverFails.pure _
  · exact NeverFails.bind (fun a => ⟨_, _, rfl⟩) fun _ => (switchStyle_neverFails hT _ _).bind fun _ =>
      NeverFails.bind (fun a => ⟨_, _, rfl⟩) fun _ => (put_neverFails hT _).bind fun _ =>
        NeverFails.pure _

theorem accepting (hT : AcceptingSink T) : Accepting (Ansi T) := by
  intro s st w
  obtain ⟨a, s', h⟩ := writeStr_neverFails hT s st w
  show (writeStr s st w).1 = _
  rw [h]

theorem finish_neverFails (hT : AcceptingSink T) : NeverFails (finish (T := T)) := by
  refine NeverFails.bind (fun a => ⟨_, _, rfl⟩) fun c => ?_
  split
  · exact put_neverFails hT _
  · exact NeverFails.pure _

variable (k : FmtSink T)

/-- What has been delivered to the inner stream. -/
abbrev del (a : Ansi T) : Str := k.delivered a.inner

theorem put_emits (s : Str) : Emits (del k) current (put (T := T) s) s id := by
  intro a
  simp only [put, onInner]
  rcases h : FmtWrite.writeStr s a.inner with ⟨r, t⟩
  cases r with
  | ok u => exact ⟨k.ok _ _ _ h, rfl⟩
  | err e => exact k.notOk _ _ _ _ h (by simp)
  | panic => exact k.notOk _ _ _ _ h (by simp)
  | diverge => exact k.notOk _ _ _ _ h (by simp)

theorem putRest_emits (l : List Str) : Emits (del k) current (putRest (T := T) l) (ansiRest l) id := by
  induction l with
  | nil => exact Emits.pure _
  | cons x l ih =>
    exact ((put_emits k _).bind fun _ => (put_emits k _).bind fun _ => ih).cast
      (by simp [ansiRest, str]) (fun _ => rfl)

theorem putSegments_emits (l : List Str) :
    Emits (del k) current (putSegments (T := T) l) (ansiSegs l) id := by
  cases l with
  | nil => exact Emits.pure _
  | cons x l =>
    exact ((put_emits k _).bind fun _ => (put_emits k _).bind fun _ =>
      (putRest_emits k _).bind fun _ => put_emits k _).cast
      (by simp [ansiSegs]) (fun _ => rfl)

theorem switchStyle_emits (c s : Style) :
    Emits (del k) current (switchStyle (T := T) c s) (ansiSwitch c s) id := by
  unfold switchStyle ansiSwitch
  split
  · exact put_emits k _
  · exact putSegments_emits k _

theorem writeStr_emits (s : Str) (st : Style) (a : Ansi T) :
    Emitted (del k) current a (writeStr s st a)
      (renderWith ansiSwitch plainEnc a.current (paint s st)) (lastStyle a.current (paint s st)) := by
  rw [renderWith_paint _ _ ansiSwitch_self, lastStyle_paint]
  unfold writeStr
  by_cases hs : s.isEmpty = true
  · simp only [hs, if_true]
    exact ⟨by simp, rfl⟩
  · simp only [hs, Bool.false_eq_true, if_false]
    have h : Emits (del k) current
        (do switchStyle (T := T) a.current st; setCurrent st; put s; return ())
        (ansiSwitch a.current st ++ ([] ++ (s ++ []))) (id ∘ id ∘ (fun _ => st) ∘ id) :=
      (switchStyle_emits k _ _).bind fun _ => Emits.bind (fun a => ⟨by simp, rfl⟩)
        fun _ => (put_emits k _).bind fun _ => Emits.pure _
    have e : s.flatMap plainEnc = s := List.flatMap_singleton' s
    rw [e]
    have h2 := h a
    simp only [List.nil_append, List.append_nil] at h2
    exact h2

theorem renders : Renders (W := Ansi T) (del k) current ansiSwitch plainEnc :=
  fun s st w => writeStr_emits k s st w

theorem finish_emits (a : Ansi T) :
    Emitted (del k) (fun _ => ()) a (finish a) (ansiSwitch a.current Style.default) () := by
  have h : finish a = (if a.current ≠ Style.default then put resetSeq else pure ()) a := rfl
  rw [h]
  by_cases hc : a.current = Style.default
  · simp only [hc, ansiSwitch_self, ne_eq, not_true_eq_false, if_false]
    exact ⟨by simp, rfl⟩
  · have e : ansiSwitch a.current Style.default = resetSeq := by simp [ansiSwitch, hc]
    rw [e]
    simp only [ne_eq, hc, not_false_eq_true, if_true]
    have := put_emits k resetSeq a
    rcases hp : put resetSeq a with ⟨r, a'⟩
    rw [hp] at this
    cases r with
    | ok u => exact ⟨this.1, rfl⟩
    | err e => exact this
    | panic => exact this
    | diverge => exact this

end Ansi
end Ansi

/-! ### Html -/

/-- Html encodes special characters. -/
def htmlEnc (c : Char) : Str := (htmlEntity c).getD [c]

/-- The string of the remaining attribute segments. -/
def htmlRest (l : List Str) : Str := l.flatMap (fun seg => ';' :: seg)

/-- Closing the open span. -/
def htmlClose (current : Style) : Str := if current ≠ Style.default then str "</span>" else []

/-- The string of a list of attribute segments. -/
def htmlSegs (current : Style) : List Str → Str
  | [] => []
  | seg :: rest => htmlClose current ++ (str "<span style=" ++ seg ++ htmlRest rest ++ str ">")

/-- The markup from one style to another. -/
def htmlSwitch (current style : Style) : Str :=
  if style = Style.default then htmlClose current
  else if style ≠ current then htmlSegs current (Html.segments (style.diffFrom Style.default))
  else []

theorem htmlSwitch_self (st : Style) : htmlSwitch st st = [] := by
  unfold htmlSwitch htmlClose
  split
  · simp_all
  · simp

section Html
variable {T : Type} [FmtWrite T]

namespace Html

theorem put_neverFails (hT : AcceptingSink T) (s : Str) : NeverFails (put (T := T) s) := by
  intro a
  refine ⟨(), { a with inner := (FmtWrite.writeStr s a.inner).2 }, ?_⟩
  simp only [put, onInner]
  have := hT s a.inner
  rcases h : FmtWrite.writeStr s a.inner with ⟨r, t⟩
  rw [h] at this
  simp_all

theorem putRest_neverFails (hT : AcceptingSink T) (l : List Str) : NeverFails (putRest (T := T) l) := by
  induction l with
  | nil => exact NeverFails.pure _
  | cons x l ih =>
    exact (put_neverFails hT _).bind fun _ => (put_neverFails hT _).bind fun _ => ih

theorem closeSpan_neverFails (hT : AcceptingSink T) (c : Style) :
    NeverFails (closeSpan (T := T) c) := by
  unfold closeSpan
  split
  · exact put_neverFails hT _
  · exact NeverFails.pure _

theorem putSegments_neverFails (hT : AcceptingSink T) (c : Style) (l : List Str) :
    NeverFails (putSegments (T := T) c l) := by
  cases l with
  | nil => exact NeverFails.pure _
  | cons x l =>
    exact (closeSpan_neverFails hT _).bind fun _ => (put_neverFails hT _).bind fun _ =>
      (put_neverFails hT _).bind fun _ =>
      (putRest_neverFails hT _).bind fun _ => put_neverFails hT _

theorem putEscaped_neverFails (hT : AcceptingSink T) (run s : Str) :
    NeverFails (putEscaped (T := T) run s) := by
  induction s generalizing run with
  | nil => exact put_neverFails hT _
  | cons c s ih =>
    unfold putEscaped
    split
    · exact (put_neverFails hT _).bind fun _ => (put_neverFails hT _).bind fun _ => ih _
    · exact ih _

theorem switchStyle_neverFails (hT : AcceptingSink T) (c s : Style) :
    NeverFails (switchStyle (T := T) c s) := by
  unfold switchStyle
  split
  · exact closeSpan_neverFails hT _
  · split
    · exact putSegments_neverFails hT _ _
    · exact NeverFails.pure _

theorem writeStr_neverFails (hT : AcceptingSink T) (s : Str) (st : Style) :
    NeverFails (writeStr (T := T) s st) := by
  unfold writeStr
  split
  · exact NeverFails.pure _
  · exact NeverFails.bind (fun a => ⟨_, _, rfl⟩) fun _ => (switchStyle_neverFails hT _ _).bind fun _ =>
      NeverFails.bind (fun a => ⟨_, _, rfl⟩) fun _ => (putEscaped_neverFails hT _ _).bind fun _ =>
        NeverFails.pure _

theorem accepting (hT : AcceptingSink T) : Accepting (Html T) := by
  intro s st w
  obtain ⟨a, s', h⟩ := writeStr_neverFails hT s st w
  show (writeStr s st w).1 = _
  rw [h]

theorem finish_neverFails (hT : AcceptingSink T) : NeverFails (finish (T := T)) :=
  NeverFails.bind (fun _ => ⟨_, _, rfl⟩) fun _ => closeSpan_neverFails hT _

variable (k : FmtSink T)

/-- What has been delivered to the inner stream. -/
abbrev del (a : Html T) : Str := k.delivered a.inner

theorem put_emits (s : Str) : Emits (del k) current (put (T := T) s) s id := by
  intro a
  simp only [put, onInner]
  rcases h : FmtWrite.writeStr s a.inner with ⟨r, t⟩
  cases r with
  | ok u => exact ⟨k.ok _ _ _ h, rfl⟩
  | err e => exact k.notOk _ _ _ _ h (by simp)
  | panic => exact k.notOk _ _ _ _ h (by simp)
  | diverge => exact k.notOk _ _ _ _ h (by simp)

theorem putRest_emits (l : List Str) : Emits (del k) current (putRest (T := T) l) (htmlRest l) id := by
  induction l with
  | nil => exact Emits.pure _
  | cons x l ih =>
    exact ((put_emits k _).bind fun _ => (put_emits k _).bind fun _ => ih).cast
      (by simp [htmlRest, str]) (fun _ => rfl)

theorem closeSpan_emits (c : Style) :
    Emits (del k) current (closeSpan (T := T) c) (htmlClose c) id := by
  unfold closeSpan htmlClose
  split
  · exact put_emits k _
  · exact Emits.pure _

theorem putSegments_emits (c : Style) (l : List Str) :
    Emits (del k) current (putSegments (T := T) c l) (htmlSegs c l) id := by
  cases l with
  | nil => exact Emits.pure _
  | cons x l =>
    exact ((closeSpan_emits k c).bind fun _ => (put_emits k _).bind fun _ =>
      (put_emits k _).bind fun _ =>
      (putRest_emits k _).bind fun _ => put_emits k _).cast
      (by simp [htmlSegs]) (fun _ => rfl)

theorem switchStyle_emits (c s : Style) :
    Emits (del k) current (switchStyle (T := T) c s) (htmlSwitch c s) id := by
  unfold switchStyle htmlSwitch
  split
  · exact closeSpan_emits k _
  · split
    · exact putSegments_emits k _ _
    · exact Emits.pure _

theorem putEscaped_emits (run s : Str) :
    Emits (del k) current (putEscaped (T := T) run s) (run ++ s.flatMap htmlEnc) id := by
  induction s generalizing run with
  | nil => exact (put_emits k _).cast (by simp) (fun _ => rfl)
  | cons c s ih =>
    unfold putEscaped
    split
    · rename_i entity he
      exact ((put_emits k _).bind fun _ => (put_emits k _).bind fun _ => ih []).cast
        (by simp [htmlEnc, he]) (fun _ => rfl)
    · rename_i he
      exact (ih _).cast (by simp [htmlEnc, he]) (fun _ => rfl)

theorem writeStr_emits (s : Str) (st : Style) (a : Html T) :
    Emitted (del k) current a (writeStr s st a)
      (renderWith htmlSwitch htmlEnc a.current (paint s st)) (lastStyle a.current (paint s st)) := by
  rw [renderWith_paint _ _ htmlSwitch_self, lastStyle_paint]
  unfold writeStr
  by_cases hs : s.isEmpty = true
  · simp only [hs, if_true]
    exact ⟨by simp, rfl⟩
  · simp only [hs, Bool.false_eq_true, if_false]
    have h : Emits (del k) current
        (do switchStyle (T := T) a.current st; setCurrent st; putEscaped [] s; return ())
        (htmlSwitch a.current st ++ ([] ++ (([] ++ s.flatMap htmlEnc) ++ [])))
        (id ∘ id ∘ (fun _ => st) ∘ id) :=
      (switchStyle_emits k _ _).bind fun _ => Emits.bind (fun a => ⟨by simp, rfl⟩)
        fun _ => (putEscaped_emits k _ _).bind fun _ => Emits.pure _
    have h2 := h a
    simp only [List.nil_append, List.append_nil] at h2
    exact h2

theorem renders : Renders (W := Html T) (del k) current htmlSwitch htmlEnc :=
  fun s st w => writeStr_emits k s st w

theorem finish_emits (a : Html T) :
    Emitted (del k) (fun _ => ()) a (finish a) (htmlSwitch a.current Style.default) () := by
  have e : htmlSwitch a.current Style.default = htmlClose a.current := by simp [htmlSwitch]
  rw [e]
  have h : finish a = closeSpan a.current a := rfl
  rw [h]
  have := closeSpan_emits k a.current a
  rcases hp : closeSpan a.current a with ⟨r, a'⟩
  rw [hp] at this
  cases r with
  | ok u => exact ⟨this.1, rfl⟩
  | err e => exact this
  | panic => exact this
  | diverge => exact this

end Html
end Html

end Stylish
