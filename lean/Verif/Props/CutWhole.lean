import Verif.Props.Cut
/-
C72 on streams that take each call whole or not at all.
-/

namespace Stylish.Props

open Spec

namespace CutOff

variable {T : Type} [FmtWrite T]

/-- Run from `s`, the action emitted `out`; or it stopped after something `part` allows. -/
def Stops {S E A : Type} (del : S → Str) (x : Act S E A) (out : Str) (part : Str → Prop) : Prop :=
  ∀ s, match x s with
    | (.ok _, s') => del s' = del s ++ out
    | (_, s') => ∃ p, part p ∧ del s' = del s ++ p

variable {S E A B : Type} {del : S → Str}

theorem Stops.pure (a : A) : Stops del (pure a : Act S E A) [] (fun _ => False) := fun s => by
  show del s = del s ++ []
  simp

theorem Stops.bind {x : Act S E A} {f : A → Act S E B} {o1 o2 : Str} {p1 p2 : Str → Prop}
    (hx : Stops del x o1 p1) (hf : ∀ a, Stops del (f a) o2 p2) :
    Stops del (x >>= f) (o1 ++ o2) (fun p => p1 p ∨ ∃ q, p2 q ∧ p = o1 ++ q) := by
  intro s
  rw [Act.bind_apply]
  have h1 := hx s
  rcases hxs : x s with ⟨r, s'⟩
  rw [hxs] at h1
  cases r with
  | ok a =>
    have h1 : del s' = del s ++ o1 := h1
    have h2 := hf a s'
    rcases hfs : f a s' with ⟨r, s''⟩
    rw [hfs] at h2
    have bad : (∃ p, p2 p ∧ del s'' = del s' ++ p) →
        ∃ p, (p1 p ∨ ∃ q, p2 q ∧ p = o1 ++ q) ∧ del s'' = del s ++ p := by
      rintro ⟨p, hp, h⟩
      exact ⟨o1 ++ p, .inr ⟨p, hp, rfl⟩, by rw [h, h1, List.append_assoc]⟩
    simp only [hfs]
    cases r with
    | ok b =>
      have h2 : del s'' = del s' ++ o2 := h2
      show del s'' = del s ++ (o1 ++ o2)
      rw [h2, h1, List.append_assoc]
    | err e => exact bad h2
    | panic => exact bad h2
    | diverge => exact bad h2
  | err e => obtain ⟨p, hp, h⟩ := h1; exact ⟨p, .inl hp, h⟩
  | panic => obtain ⟨p, hp, h⟩ := h1; exact ⟨p, .inl hp, h⟩
  | diverge => obtain ⟨p, hp, h⟩ := h1; exact ⟨p, .inl hp, h⟩

theorem Stops.cast {x : Act S E A} {o1 o2 : Str} {p1 p2 : Str → Prop} (h : Stops del x o1 p1) (ho : o1 = o2)
    (hp : ∀ p, p1 p → p2 p) : Stops del x o2 p2 := by
  subst ho
  intro s
  have h := h s
  rcases hxs : x s with ⟨r, s'⟩
  rw [hxs] at h
  cases r with
  | ok a => exact h
  | err e => obtain ⟨p, h1, h2⟩ := h; exact ⟨p, hp p h1, h2⟩
  | panic => obtain ⟨p, h1, h2⟩ := h; exact ⟨p, hp p h1, h2⟩
  | diverge => obtain ⟨p, h1, h2⟩ := h; exact ⟨p, hp p h1, h2⟩

/-- What has reached the stream. -/
abbrev hdel (k : FmtSink T) : Html T → Str := fun a => k.delivered a.inner

theorem put_stops (k : FmtSink T) (hw : WholeSink k) (s : Str) : Stops (hdel k) (Html.put s) s (fun p => p = []) := by
  intro a
  unfold Html.put Html.onInner
  rcases h : FmtWrite.writeStr s a.inner with ⟨r, t'⟩
  have bad : r ≠ .ok () → ∃ p, p = [] ∧ k.delivered t' = k.delivered a.inner ++ p := fun hr =>
    ⟨[], rfl, by rw [List.append_nil]; exact hw s _ _ _ h hr⟩
  cases r with
  | ok u => exact k.ok _ _ _ h
  | err e => exact bad (by simp)
  | panic => exact bad (by simp)
  | diverge => exact bad (by simp)

theorem putRest_stops (k : FmtSink T) (hw : WholeSink k) (l : List Str) :
    Stops (hdel k) (Html.putRest l) (htmlRest l) (fun p => p <+: htmlRest l) := by
  induction l with
  | nil => exact (Stops.pure ()).cast rfl (fun _ h => h.elim)
  | cons seg l ih =>
    have e : htmlRest (seg :: l) = str ";" ++ (seg ++ htmlRest l) := by simp [htmlRest, str]
    rw [e]
    refine ((put_stops k hw _).bind fun _ => (put_stops k hw _).bind fun _ => ih).cast rfl ?_
    rintro p (rfl | ⟨q, rfl | ⟨q', h, rfl⟩, rfl⟩)
    · exact List.nil_prefix
    · simp
    · exact (List.prefix_append_right_inj _).2 ((List.prefix_append_right_inj _).2 h)

/-- Nothing, or an opening tag cut off in its value or right before it. -/
def CutTag (cut : Str) : Prop :=
  cut = [] ∨ ∃ st q, st ≠ Style.default ∧ cut = str "<span style=" ++ q ∧ q <+: valueOf st

theorem closeSpan_stops (k : FmtSink T) (hw : WholeSink k) (cur : Style) :
    Stops (hdel k) (Html.closeSpan cur) (htmlClose cur) (fun p => p = []) := by
  unfold Html.closeSpan htmlClose
  split
  · exact put_stops k hw _
  · exact (Stops.pure ()).cast rfl (fun _ h => h.elim)

theorem switchStyle_stops (k : FmtSink T) (hw : WholeSink k) (cur st : Style) :
    Stops (hdel k) (Html.switchStyle cur st) (htmlSwitch cur st)
      (fun p => ∃ st' cut, p = htmlSwitch cur st' ++ cut ∧ CutTag cut) := by
  have nil : ∃ st' cut, ([] : Str) = htmlSwitch cur st' ++ cut ∧ CutTag cut :=
    ⟨cur, [], by rw [htmlSwitch_self]; rfl, .inl rfl⟩
  unfold Html.switchStyle htmlSwitch
  split
  · refine (closeSpan_stops k hw cur).cast rfl ?_
    rintro p rfl
    exact nil
  · rename_i hst
    split
    · cases hs : Html.segments (st.diffFrom Style.default) with
      | nil => exact absurd hs (segments_ne_nil st hst)
      | cons seg rest =>
        have hv : valueOf st = seg ++ htmlRest rest := by rw [valueOf, hs, htmlValue]
        refine ((closeSpan_stops k hw cur).bind fun _ => (put_stops k hw _).bind fun _ => (put_stops k hw _).bind
          fun _ => (putRest_stops k hw rest).bind fun _ => put_stops k hw _).cast ?_ ?_
        · simp [htmlSegs]
        · have tag : ∀ q, q <+: valueOf st → ∃ st' cut, htmlClose cur ++ (str "<span style=" ++ q) =
              htmlSwitch cur st' ++ cut ∧ CutTag cut := fun q hq =>
            ⟨Style.default, str "<span style=" ++ q, by simp [htmlSwitch], .inr ⟨st, q, hst, rfl, hq⟩⟩
          rintro p (rfl | ⟨q, rfl | ⟨q, rfl | ⟨q, h | ⟨q, rfl, rfl⟩, rfl⟩, rfl⟩, rfl⟩)
          · exact nil
          · exact ⟨Style.default, [], by simp, .inl rfl⟩
          · exact tag [] List.nil_prefix
          · exact tag _ (by rw [hv]; exact (List.prefix_append_right_inj _).2 h)
          · exact tag _ (by rw [hv, List.append_nil]; exact List.prefix_rfl)
    · exact (Stops.pure ()).cast rfl (fun _ h => h.elim)

theorem putEscaped_stops (k : FmtSink T) (hw : WholeSink k) (s : Str) : ∀ run : Str,
    Stops (hdel k) (Html.putEscaped run s) (run ++ s.flatMap htmlEnc)
      (fun p => p = [] ∨ ∃ n, p = run ++ (s.take n).flatMap htmlEnc) := by
  induction s with
  | nil => exact fun run => (put_stops k hw run).cast (by simp) (fun p h => .inl h)
  | cons c s ih =>
    intro run
    unfold Html.putEscaped
    cases he : htmlEntity c with
    | none =>
      have e : htmlEnc c = [c] := by rw [htmlEnc, he]; rfl
      refine (ih (run ++ [c])).cast (by simp [e]) ?_
      rintro p (rfl | ⟨n, rfl⟩)
      · exact .inl rfl
      · exact .inr ⟨n + 1, by simp [e]⟩
    | some entity =>
      have e : htmlEnc c = entity := by rw [htmlEnc, he]; rfl
      refine ((put_stops k hw run).bind fun _ => (put_stops k hw entity).bind fun _ => ih []).cast (by simp [e]) ?_
      rintro p (rfl | ⟨q, rfl | ⟨q, rfl | ⟨n, rfl⟩, rfl⟩, rfl⟩)
      · exact .inl rfl
      · exact .inr ⟨0, by simp⟩
      · exact .inr ⟨1, by simp [e]⟩
      · exact .inr ⟨n + 1, by simp [e]⟩

/-- The rendering of the first characters, a switch of style, and nothing or a cut-off tag. -/
def Parts (cur : Style) (t : Styled) (p : Str) : Prop :=
  ∃ n st cut, p = renderWith htmlSwitch htmlEnc cur (t.take n) ++ (htmlSwitch (lastStyle cur (t.take n)) st ++ cut) ∧
    CutTag cut

/-- From a given state of the writer. -/
theorem writeStr_stops (k : FmtSink T) (hw : WholeSink k) (s : Str) (st : Style) (a : Html T) :
    match Html.writeStr s st a with
    | (.ok _, a') => hdel k a' = hdel k a ++ renderWith htmlSwitch htmlEnc a.current (paint s st) ∧
        a'.current = lastStyle a.current (paint s st)
    | (_, a') => ∃ p, Parts a.current (paint s st) p ∧ hdel k a' = hdel k a ++ p := by
  have hr := Html.renders k s st a
  have hs : match Html.writeStr s st a with
    | (.ok _, _) => True
    | (_, a') => ∃ p, Parts a.current (paint s st) p ∧ hdel k a' = hdel k a ++ p := by
    by_cases he : s.isEmpty = true
    · have : Html.writeStr s st a = (.ok (), a) := by simp only [Html.writeStr, he]; rfl
      rw [this]; trivial
    · have hset : Stops (hdel k) (Html.setCurrent st) [] (fun _ => False) := fun a => by
        show hdel k a = hdel k a ++ []
        simp
      have e : Html.writeStr s st a = (Html.switchStyle a.current st >>= fun _ => Html.setCurrent st >>= fun _ =>
          Html.putEscaped [] s >>= fun _ => pure ()) a := by
        unfold Html.writeStr
        rw [if_neg he]
        rfl
      have h := ((switchStyle_stops k hw a.current st).bind fun _ => hset.bind fun _ =>
        (putEscaped_stops k hw s []).bind fun _ => Stops.pure (E := FmtError) ()) a
      rw [← e] at h
      have bad : ∀ p, ((∃ st' cut, p = htmlSwitch a.current st' ++ cut ∧ CutTag cut) ∨
          ∃ q, (False ∨ ∃ q', ((q' = [] ∨ ∃ n, q' = [] ++ (s.take n).flatMap htmlEnc) ∨
            ∃ q, False ∧ q' = [] ++ s.flatMap htmlEnc ++ q) ∧ q = [] ++ q') ∧ p = htmlSwitch a.current st ++ q) →
          Parts a.current (paint s st) p := by
        rintro p (⟨st', cut, rfl, hc⟩ | ⟨q, h | ⟨q', (rfl | ⟨n, rfl⟩) | ⟨_, h, _⟩, rfl⟩, rfl⟩)
        · exact ⟨0, st', cut, rfl, hc⟩
        · exact h.elim
        · exact ⟨0, st, [], rfl, .inl rfl⟩
        · have e2 : (paint s st).take n = paint (s.take n) st := by simp [paint]
          refine ⟨n, st, [], ?_, .inl rfl⟩
          rw [e2, renderWith_paint _ _ htmlSwitch_self, lastStyle_paint]
          by_cases h0 : (s.take n).isEmpty = true
          · rw [if_pos h0, if_pos h0]
            rw [List.isEmpty_iff] at h0
            rw [h0]
            simp
          · rw [if_neg h0, if_neg h0, htmlSwitch_self]
            simp
        · exact h.elim
      rcases hx : Html.writeStr s st a with ⟨r, a'⟩
      rw [hx] at h
      cases r with
      | ok u => trivial
      | err e => obtain ⟨p, h1, h2⟩ := h; exact ⟨p, bad p h1, h2⟩
      | panic => obtain ⟨p, h1, h2⟩ := h; exact ⟨p, bad p h1, h2⟩
      | diverge => obtain ⟨p, h1, h2⟩ := h; exact ⟨p, bad p h1, h2⟩
  have e0 : Write.writeStr s st a = Html.writeStr s st a := rfl
  rw [e0] at hr
  rcases hx : Html.writeStr s st a with ⟨r, a'⟩
  rw [hx] at hr hs
  cases r with
  | ok u => exact hr
  | err e => exact hs
  | panic => exact hs
  | diverge => exact hs

theorem parts_append (cur : Style) (t u : Styled) (p : Str) (h : Parts (lastStyle cur t) u p) :
    Parts cur (t ++ u) (renderWith htmlSwitch htmlEnc cur t ++ p) := by
  obtain ⟨n, st, cut, rfl, hc⟩ := h
  refine ⟨t.length + n, st, cut, ?_, hc⟩
  rw [List.take_length_add_append, renderWith_append, lastStyle_append, List.append_assoc]

theorem parts_left (cur : Style) (t u : Styled) (p : Str) (h : Parts cur t p) : Parts cur (t ++ u) p := by
  obtain ⟨n, st, cut, rfl, hc⟩ := h
  by_cases hn : n ≤ t.length
  · exact ⟨n, st, cut, by rw [List.take_append_of_le_length hn], hc⟩
  · refine ⟨t.length, st, cut, ?_, hc⟩
    rw [List.take_append_of_le_length (Nat.le_refl _), List.take_of_length_le (Nat.le_of_lt (Nat.lt_of_not_le hn)),
      List.take_of_length_le (Nat.le_refl _)]

theorem writeChunks_stops (k : FmtSink T) (hw : WholeSink k) (chs : List Chunk) : ∀ (a : Html T),
    match writeChunks chs a with
    | (.ok _, a') => hdel k a' = hdel k a ++ renderWith htmlSwitch htmlEnc a.current (flatten chs) ∧
        a'.current = lastStyle a.current (flatten chs)
    | (_, a') => ∃ p, Parts a.current (flatten chs) p ∧ hdel k a' = hdel k a ++ p := by
  induction chs with
  | nil => exact fun a => ⟨by simp [renderWith], rfl⟩
  | cons ch chs ih =>
    intro a
    rw [writeChunks_cons]
    have h1 := writeStr_stops k hw ch.1 ch.2 a
    have e0 : Write.writeStr ch.1 ch.2 a = Html.writeStr ch.1 ch.2 a := rfl
    rw [e0]
    rcases hx : Html.writeStr ch.1 ch.2 a with ⟨r, a'⟩
    rw [hx] at h1
    rw [flatten_cons]
    have bad : (∃ p, Parts a.current (paint ch.1 ch.2) p ∧ hdel k a' = hdel k a ++ p) →
        ∃ p, Parts a.current (paint ch.1 ch.2 ++ flatten chs) p ∧ hdel k a' = hdel k a ++ p := by
      rintro ⟨p, h2, h3⟩
      exact ⟨p, parts_left _ _ _ _ h2, h3⟩
    cases r with
    | ok u =>
      obtain ⟨h2, h3⟩ := h1
      have h4 := ih a'
      rw [h3] at h4
      simp only
      rcases hy : writeChunks chs a' with ⟨r, a''⟩
      rw [hy] at h4
      have bad : (∃ p, Parts (lastStyle a.current (paint ch.1 ch.2)) (flatten chs) p ∧ hdel k a'' = hdel k a' ++ p) →
          ∃ p, Parts a.current (paint ch.1 ch.2 ++ flatten chs) p ∧ hdel k a'' = hdel k a ++ p := by
        rintro ⟨p, h5, h6⟩
        exact ⟨_, parts_append _ _ _ _ h5, by rw [h6, h2, List.append_assoc]⟩
      cases r with
      | ok u =>
        obtain ⟨h5, h6⟩ := h4
        exact ⟨by rw [h5, h2, renderWith_append, List.append_assoc], by rw [h6, lastStyle_append]⟩
      | err e => exact bad h4
      | panic => exact bad h4
      | diverge => exact bad h4
    | err e => exact bad h1
    | panic => exact bad h1
    | diverge => exact bad h1

open Browser

variable {names : Names}

theorem cutTag_piece (cut : Str) (h : CutTag cut) : Piece cut ∧ shown (Browser.tokens names 0 .data cut) = [] := by
  rcases h with rfl | ⟨st, q, hst, rfl, z, hz⟩
  · exact ⟨.inl rfl, rfl⟩
  · have hp : Piece (str "<span style=" ++ q) :=
      .inr (.inr (.inr ⟨st, z ++ str ">", hst, by simp [str], by rw [← hz]; simp⟩))
    refine ⟨hp, (piece_tokens _ hp).2.resolve_right fun hm => ?_⟩
    have : ∀ m ∈ halfMarkup, m.length < 12 := by decide
    have h2 := this _ hm
    rw [List.length_append] at h2
    have : (str "<span style=").length = 12 := by decide
    omega

theorem shows_parts (hn : names.Standard) (t : Styled) (p : Str) (h : Parts Style.default t p) :
    ∃ n, shows names p = some (visible (t.take n)) := by
  obtain ⟨n, st, cut, rfl, hc⟩ := h
  obtain ⟨hp, h0⟩ := cutTag_piece (names := names) cut hc
  obtain ⟨st', h1⟩ := shows_whole hn (t.take n) st cut hp
  exact ⟨n, by rw [h1, h0]; simp⟩

end CutOff

section
variable {T : Type} [FmtWrite T]

open Browser

/-- C72, `Html` on a stream that takes each call whole or nothing of it: whatever goes wrong, a browser shows of what
reached the stream the first characters of the text, each in its style, and nothing else. -/
theorem C72_html_whole (names : Names) (hn : names.Standard) (k : FmtSink T) (hw : WholeSink k) (args : Arguments)
    (hp : Propagates args.f) (log : List Chunk) (out : Res FmtError Unit)
    (hargs : writes args.f Style.default FormatterArgs.default = (log, out))
    (t : T) (r : Res FmtError Unit) (a : Html T)
    (h : (Html.writeFmt args >>= fun _ => Html.finish) (Html.new t) = (r, a)) :
    ∃ p n, k.delivered a.inner = k.delivered t ++ p ∧ shows names p = some (visible ((flatten log).take n)) ∧
      visible ((flatten log).take n) <+: visible (flatten log) ∧
      (r = .ok () → shows names p = some (visible (flatten log))) := by
  have hd : denote args = (log, out) := hargs
  suffices hs : ∃ p, CutOff.Parts Style.default (flatten log) p ∧ k.delivered a.inner = k.delivered t ++ p by
    obtain ⟨p, h1, h2⟩ := hs
    obtain ⟨n, h3⟩ := CutOff.shows_parts hn _ p h1
    refine ⟨p, n, h2, h3, CutOff.visible_take _ n, fun hr => ?_⟩
    obtain ⟨p', h4, -, h5⟩ := C72_html names hn k args hp log out hargs t r a h
    obtain rfl := List.append_cancel_left (h2.symm.trans h4)
    exact h5 hr
  rw [Act.bind_apply] at h
  unfold Html.writeFmt at h
  rw [Write.writeFmt_propagates args hp, hd] at h
  have e := CutOff.writeChunks_stops k hw log (Html.new t)
  rcases hc : writeChunks log (Html.new t) with ⟨rc, w⟩
  rw [hc] at e h
  have all : CutOff.Parts Style.default (flatten log) (renderWith htmlSwitch htmlEnc Style.default (flatten log)) :=
    ⟨(flatten log).length, lastStyle Style.default (flatten log), [], by
      rw [List.take_of_length_le (Nat.le_refl _), htmlSwitch_self]; simp, .inl rfl⟩
  cases rc with
  | ok u =>
    obtain ⟨e1, e2⟩ := e
    rcases out with u | x | _ | _
    · have h : Html.finish w = (r, a) := h
      have hf := CutOff.closeSpan_stops k hw w.current w
      have e3 : Html.finish w = Html.closeSpan w.current w := rfl
      rw [← e3, h] at hf
      have bad : (∃ p, p = [] ∧ CutOff.hdel k a = CutOff.hdel k w ++ p) →
          ∃ p, CutOff.Parts Style.default (flatten log) p ∧ k.delivered a.inner = k.delivered t ++ p := by
        rintro ⟨p, rfl, h2⟩
        exact ⟨_, all, by rw [List.append_nil] at h2; exact h2.trans e1⟩
      cases r with
      | ok u =>
        have hf : CutOff.hdel k a = CutOff.hdel k w ++ htmlClose w.current := hf
        refine ⟨_, ⟨(flatten log).length, Style.default, [], rfl, .inl rfl⟩, ?_⟩
        rw [List.take_of_length_le (Nat.le_refl _), CutOff.switch_default, List.append_nil]
        have e1 : CutOff.hdel k w = k.delivered t ++ _ := e1
        have e2 : w.current = lastStyle Style.default (flatten log) := e2
        rw [e1, e2, List.append_assoc] at hf
        exact hf
      | err e => exact bad hf
      | panic => exact bad hf
      | diverge => exact bad hf
    all_goals
      obtain ⟨rfl, rfl⟩ := Prod.mk.inj h
      exact ⟨_, all, e1⟩
  | _ =>
    obtain ⟨rfl, rfl⟩ := Prod.mk.inj h
    exact e

end

/-- A buffer of fixed size, which does not take what does not fit. -/
structure FixedSink where
  chars : Str
  room : Nat
  deriving DecidableEq

instance : FmtWrite FixedSink := ⟨fun s t =>
  if s.length ≤ t.room then (.ok (), ⟨t.chars ++ s, t.room - s.length⟩) else (.err (), t)⟩

def fixedSink : FmtSink FixedSink where
  delivered := FixedSink.chars
  ok := by
    intro s t t' h
    simp only [FmtWrite.writeStr] at h
    split at h
    · rw [← (Prod.mk.inj h).2]
    · exact absurd (Prod.mk.inj h).1 (by simp)
  notOk := by
    intro s t t' r h hr
    simp only [FmtWrite.writeStr] at h
    split at h
    · exact absurd (Prod.mk.inj h).1.symm hr
    · exact ⟨[], List.nil_prefix, by rw [← (Prod.mk.inj h).2, List.append_nil]⟩

theorem fixedSink_whole : WholeSink fixedSink := by
  intro s t t' r h hr
  simp only [FmtWrite.writeStr] at h
  split at h
  · exact absurd (Prod.mk.inj h).1.symm hr
  · rw [← (Prod.mk.inj h).2]

/-- The sizes of the samples of C72: no part of any markup is seen. -/
example :
    let run := fun n => (Html.writeFmt ⟨cutDisp⟩ >>= fun _ => Html.finish) (Html.new (⟨[], n⟩ : FixedSink))
    let red : Style := ⟨.Red, .Default, .Normal⟩
    let seen := fun n => Browser.shows fourNames (run n).2.inner.chars
    (run 12).1 = .err () ∧ (run 12).2.inner.chars = str "<span style=" ∧ seen 12 = some [] ∧
    (run 25).2.inner.chars = str "<span style=color:red>a" ∧ seen 25 = some [('a', red)] ∧
    (run 29).1 = .err () ∧ (run 29).2.inner.chars = str "<span style=color:red>a&lt;" ∧
    seen 29 = some [('a', red), ('<', red)] := by
  decide +kernel

end Stylish.Props
