import Verif.Spec.Calls
import Verif.Props.Compose
import Verif.Props.CarryOn
/-
C86: which calls a stream gets.
-/

namespace Stylish.Props

open Spec

namespace CallLog

variable {T : Type} [FmtWrite T]

/-! ### Ansi -/

abbrev adel : Ansi (Recorder T) → List Str := fun a => a.inner.calls

theorem aput (s : Str) : Emits adel Ansi.current (Ansi.put (T := Recorder T) s) [s] id := by
  intro a
  have e : Ansi.put s a = ((FmtWrite.writeStr s a.inner.inner).1,
    { a with inner := ⟨(FmtWrite.writeStr s a.inner.inner).2, a.inner.calls ++ [s]⟩ }) := rfl
  rw [e]
  cases (FmtWrite.writeStr s a.inner.inner).1 with
  | ok u => exact ⟨rfl, rfl⟩
  | err u => exact ⟨[s], List.prefix_rfl, rfl⟩
  | panic => exact ⟨[s], List.prefix_rfl, rfl⟩
  | diverge => exact ⟨[s], List.prefix_rfl, rfl⟩

def ansiRestCalls (l : List Str) : List Str := l.flatMap fun seg => [str ";", seg]

def ansiSegCalls : List Str → List Str
  | [] => []
  | seg :: rest => [str "\x1b[", seg] ++ ansiRestCalls rest ++ [str "m"]

/-- The calls of a change of style. -/
def ansiSwitchCalls (c s : Style) : List Str :=
  if c ≠ s ∧ s = Style.default then [Ansi.resetSeq] else ansiSegCalls (Ansi.segments (s.diffFrom c))

theorem arest (l : List Str) : Emits adel Ansi.current (Ansi.putRest (T := Recorder T) l) (ansiRestCalls l) id := by
  induction l with
  | nil => exact Emits.pure _
  | cons x l ih =>
    exact ((aput _).bind fun _ => (aput _).bind fun _ => ih).cast (by simp [ansiRestCalls]) (fun _ => rfl)

theorem aswitch (c s : Style) :
    Emits adel Ansi.current (Ansi.switchStyle (T := Recorder T) c s) (ansiSwitchCalls c s) id := by
  unfold Ansi.switchStyle ansiSwitchCalls
  split
  · exact aput _
  · cases Ansi.segments (s.diffFrom c) with
    | nil => exact Emits.pure _
    | cons x l =>
      exact ((aput _).bind fun _ => (aput _).bind fun _ => (arest _).bind fun _ => aput _).cast
        (by simp [ansiSegCalls]) (fun _ => rfl)

theorem ansiSwitchCalls_self (s : Style) : ansiSwitchCalls s s = [] := by
  simp [ansiSwitchCalls, diffFrom_self, Ansi.segments, ansiSegCalls]

theorem ansiSwitchCalls_le (c s : Style) : (ansiSwitchCalls c s).length ≤ 7 := by
  unfold ansiSwitchCalls
  split
  · decide
  · rcases s.diffFrom c with ⟨f, g, i⟩
    cases f <;> cases g <;> cases i <;> simp [Ansi.segments, ansiSegCalls, ansiRestCalls]

/-! ### Html -/

abbrev hdel : Html (Recorder T) → List Str := fun a => a.inner.calls

theorem hput (s : Str) : Emits hdel Html.current (Html.put (T := Recorder T) s) [s] id := by
  intro a
  have e : Html.put s a = ((FmtWrite.writeStr s a.inner.inner).1,
    { a with inner := ⟨(FmtWrite.writeStr s a.inner.inner).2, a.inner.calls ++ [s]⟩ }) := rfl
  rw [e]
  cases (FmtWrite.writeStr s a.inner.inner).1 with
  | ok u => exact ⟨rfl, rfl⟩
  | err u => exact ⟨[s], List.prefix_rfl, rfl⟩
  | panic => exact ⟨[s], List.prefix_rfl, rfl⟩
  | diverge => exact ⟨[s], List.prefix_rfl, rfl⟩

def htmlCloseCalls (c : Style) : List Str := if c ≠ Style.default then [str "</span>"] else []

def htmlSegCalls (c : Style) : List Str → List Str
  | [] => []
  | seg :: rest => htmlCloseCalls c ++ ([str "<span style=", seg] ++ ansiRestCalls rest ++ [str ">"])

def htmlSwitchCalls (c s : Style) : List Str :=
  if s = Style.default then htmlCloseCalls c
  else if s ≠ c then htmlSegCalls c (Html.segments (s.diffFrom Style.default)) else []

theorem hclose (c : Style) : Emits hdel Html.current (Html.closeSpan (T := Recorder T) c) (htmlCloseCalls c) id := by
  unfold Html.closeSpan htmlCloseCalls
  split
  · exact hput _
  · exact Emits.pure _

theorem hrest (l : List Str) : Emits hdel Html.current (Html.putRest (T := Recorder T) l) (ansiRestCalls l) id := by
  induction l with
  | nil => exact Emits.pure _
  | cons x l ih =>
    exact ((hput _).bind fun _ => (hput _).bind fun _ => ih).cast (by simp [ansiRestCalls]) (fun _ => rfl)

theorem hswitch (c s : Style) :
    Emits hdel Html.current (Html.switchStyle (T := Recorder T) c s) (htmlSwitchCalls c s) id := by
  unfold Html.switchStyle htmlSwitchCalls
  split
  · exact hclose _
  · split
    · cases Html.segments (s.diffFrom Style.default) with
      | nil => exact Emits.pure _
      | cons x l =>
        exact ((hclose c).bind fun _ => (hput _).bind fun _ => (hput _).bind fun _ =>
          (hrest _).bind fun _ => hput _).cast (by simp [htmlSegCalls]) (fun _ => rfl)
    · exact Emits.pure _

theorem htmlSwitchCalls_self (s : Style) : htmlSwitchCalls s s = [] := by
  unfold htmlSwitchCalls htmlCloseCalls
  split
  · simp_all
  · simp

theorem htmlSwitchCalls_le (c s : Style) : (htmlSwitchCalls c s).length ≤ 8 := by
  have h : (htmlCloseCalls c).length ≤ 1 := by unfold htmlCloseCalls; split <;> decide
  unfold htmlSwitchCalls
  split
  · omega
  · split
    · rcases s.diffFrom Style.default with ⟨f, g, i⟩
      cases f <;> cases g <;> cases i <;> simp [Html.segments, htmlSegCalls, ansiRestCalls] <;> omega
    · decide

theorem cut_some (c : Char) (s r : Str) (h : htmlEntity c = some r) :
    cutAtSpecials (c :: s) = [] :: r :: cutAtSpecials s := by
  unfold htmlEntity at h
  rw [cutAtSpecials]
  by_cases h1 : c = '<'
  · subst h1; simp at h; subst h; rfl
  by_cases h2 : c = '>'
  · subst h2; simp at h; subst h; rfl
  by_cases h3 : c = '&'
  · subst h3; simp at h; subst h; rfl
  by_cases h4 : c = '"'
  · subst h4; simp at h; subst h; rfl
  by_cases h5 : c = '\''
  · subst h5; simp at h; subst h; rfl
  simp [h1, h2, h3, h4, h5] at h

theorem cut_none (c : Char) (s : Str) (h : htmlEntity c = none) :
    cutAtSpecials (c :: s) = match cutAtSpecials s with | [] => [[c]] | run :: more => (c :: run) :: more := by
  unfold htmlEntity at h
  rw [cutAtSpecials]
  by_cases h1 : c = '<'
  · simp [h1] at h
  by_cases h2 : c = '>'
  · simp [h2] at h
  by_cases h3 : c = '&'
  · simp [h3] at h
  by_cases h4 : c = '"'
  · simp [h4] at h
  by_cases h5 : c = '\''
  · simp [h5] at h
  have : List.lookup c [('<', "&lt;"), ('>', "&gt;"), ('&', "&amp;"), ('"', "&quot;"), ('\'', "&#x27;")] = none := by
    simp only [List.lookup, beq_eq_false_iff_ne.2 h1, beq_eq_false_iff_ne.2 h2, beq_eq_false_iff_ne.2 h3,
      beq_eq_false_iff_ne.2 h4, beq_eq_false_iff_ne.2 h5]
  rw [this]
  cases cutAtSpecials s <;> rfl

theorem cut_ne (s : Str) : cutAtSpecials s ≠ [] := by
  cases s with
  | nil => simp [cutAtSpecials]
  | cons c s =>
    cases h : htmlEntity c with
    | some r => rw [cut_some c s r h]; simp
    | none => rw [cut_none c s h]; cases cutAtSpecials s <;> simp

/-- With `run` pending, the first run of the rest comes behind it. -/
theorem hescaped (run s : Str) : Emits hdel Html.current (Html.putEscaped (T := Recorder T) run s)
    (match cutAtSpecials s with | [] => [run] | r :: more => (run ++ r) :: more) id := by
  induction s generalizing run with
  | nil => exact (hput _).cast (by simp [cutAtSpecials]) (fun _ => rfl)
  | cons c s ih =>
    unfold Html.putEscaped
    split
    · rename_i entity he
      rw [cut_some c s entity he]
      refine ((hput _).bind fun _ => (hput _).bind fun _ => ih []).cast ?_ (fun _ => rfl)
      cases h : cutAtSpecials s with
      | nil => exact absurd h (cut_ne s)
      | cons r more => simp
    · rename_i he
      rw [cut_none c s he]
      refine (ih _).cast ?_ (fun _ => rfl)
      cases h : cutAtSpecials s with
      | nil => exact absurd h (cut_ne s)
      | cons r more => simp

/-! ### a whole sequence of writes -/

/-- The calls of a sequence of writes: for each piece that is not empty those of the change of style and those of
the text; at the end back to the default style. -/
def saidFrom (sw : Style → Style → List Str) (enc : Str → List Str) : Style → List Chunk → List Said
  | cur, [] => (sw cur Style.default).map .markup
  | cur, ch :: rest =>
    if ch.1 = [] then saidFrom sw enc cur rest
    else (sw cur ch.2).map .markup ++ (enc ch.1).map .text ++ saidFrom sw enc ch.2 rest

theorem said_texts (sw : Style → Style → List Str) (enc : Str → List Str) (cur : Style) (chs : List Chunk) :
    texts (saidFrom sw enc cur chs) = (pieces chs).flatMap enc := by
  have h1 : ∀ l : List Str, texts (l.map .markup) = [] := by intro l; induction l <;> simp_all [texts]
  have h2 : ∀ l : List Str, texts (l.map .text) = l := by intro l; induction l <;> simp_all [texts]
  have h3 : ∀ a b, texts (a ++ b) = texts a ++ texts b := fun a b => List.filterMap_append ..
  induction chs generalizing cur with
  | nil => simp [saidFrom, h1, pieces]
  | cons ch chs ih =>
    unfold saidFrom
    by_cases h : ch.1 = []
    · rw [if_pos h, ih]; simp [pieces, h]
    · rw [if_neg h, h3, h3, h1, h2, ih]; simp [pieces, h]

theorem changesFrom_paint (cur st : Style) (s : Str) (rest : List Style) (h : s ≠ []) :
    changesFrom cur ((paint s st).map Prod.snd ++ rest) = (if st = cur then 0 else 1) + changesFrom st rest := by
  induction s generalizing cur with
  | nil => exact absurd rfl h
  | cons c s ih =>
    simp only [paint, List.map_cons, List.cons_append, changesFrom]
    congr 1
    cases s with
    | nil => rfl
    | cons d s =>
      have := ih st (by simp)
      rw [paint] at this
      rw [this]
      simp

theorem said_markups (sw : Style → Style → List Str) (enc : Str → List Str) (n : Nat) (hs : ∀ s, sw s s = [])
    (hn : ∀ c s, (sw c s).length ≤ n) (cur : Style) (chs : List Chunk) :
    (markups (saidFrom sw enc cur chs)).length ≤ n * changesFrom cur ((flatten chs).map Prod.snd) := by
  have h1 : ∀ l : List Str, markups (l.map .markup) = l := by intro l; induction l <;> simp_all [markups]
  have h2 : ∀ l : List Str, markups (l.map .text) = [] := by intro l; induction l <;> simp_all [markups]
  have h3 : ∀ a b, markups (a ++ b) = markups a ++ markups b := fun a b => List.filterMap_append ..
  have step : ∀ c s, (sw c s).length ≤ n * (if s = c then 0 else 1) := by
    intro c s
    by_cases h : s = c
    · subst h; simp [hs]
    · simpa [h] using hn c s
  induction chs generalizing cur with
  | nil =>
    have := step cur Style.default
    have e : (Style.default = cur) = (cur = (⟨.Default, .Default, .Normal⟩ : Style)) :=
      propext ⟨fun h => h.symm, fun h => h.symm⟩
    simpa [saidFrom, h1, changesFrom, e] using this
  | cons ch chs ih =>
    unfold saidFrom
    by_cases h : ch.1 = []
    · rw [if_pos h, flatten_cons, h]; exact ih cur
    · rw [if_neg h, h3, h3, h1, h2, flatten_cons, List.map_append, changesFrom_paint _ _ _ _ h]
      have := step cur ch.2
      have := ih ch.2
      rw [Nat.mul_add]
      simp only [List.length_append, List.length_nil]
      omega

/-- The calls without those of the way back at the end, and the style then in force. -/
def bodyFrom (sw : Style → Style → List Str) (enc : Str → List Str) : Style → List Chunk → List Str
  | _, [] => []
  | cur, ch :: rest =>
    if ch.1 = [] then bodyFrom sw enc cur rest
    else sw cur ch.2 ++ enc ch.1 ++ bodyFrom sw enc ch.2 rest

theorem said_body (sw : Style → Style → List Str) (enc : Str → List Str) (cur : Style) (chs : List Chunk) :
    (saidFrom sw enc cur chs).map Said.arg =
      bodyFrom sw enc cur chs ++ sw (lastStyle cur (flatten chs)) Style.default := by
  have h1 : ∀ l : List Str, (l.map Said.markup).map Said.arg = l := by intro l; simp [Function.comp_def, Said.arg]
  have h2 : ∀ l : List Str, (l.map Said.text).map Said.arg = l := by intro l; simp [Function.comp_def, Said.arg]
  induction chs generalizing cur with
  | nil => rw [saidFrom, h1]; rfl
  | cons ch chs ih =>
    unfold saidFrom bodyFrom
    rw [flatten_cons, lastStyle_append, lastStyle_paint]
    by_cases h : ch.1 = []
    · rw [if_pos h, if_pos h, ih]; simp [h]
    · rw [if_neg h, if_neg h, List.map_append, List.map_append, h1, h2, ih]
      simp [h]

/-- Writers whose every write makes the calls of the change of style and those of the text. -/
theorem body_emitted {W : Type} [Write W] {del : W → List Str} {cur : W → Style} {sw : Style → Style → List Str}
    {enc : Str → List Str}
    (h : ∀ s st w, Emitted del cur w (Write.writeStr s st w) (if s = [] then [] else sw (cur w) st ++ enc s)
      (if s = [] then cur w else st)) (chs : List Chunk) (w : W) :
    Emitted del cur w (writeChunks chs w) (bodyFrom sw enc (cur w) chs) (lastStyle (cur w) (flatten chs)) := by
  induction chs generalizing w with
  | nil => exact ⟨by simp [bodyFrom], rfl⟩
  | cons ch chs ih =>
    have h1 := h ch.1 ch.2 w
    rw [writeChunks_cons]
    rcases hw : Write.writeStr ch.1 ch.2 w with ⟨r, w'⟩
    rw [hw] at h1
    have e : bodyFrom sw enc (cur w) (ch :: chs) = (if ch.1 = [] then [] else sw (cur w) ch.2 ++ enc ch.1) ++
        bodyFrom sw enc (if ch.1 = [] then cur w else ch.2) chs := by
      conv => lhs; unfold bodyFrom
      split <;> simp
    have e2 : lastStyle (cur w) (flatten (ch :: chs)) =
        lastStyle (if ch.1 = [] then cur w else ch.2) (flatten chs) := by
      rw [flatten_cons, lastStyle_append, lastStyle_paint]
      simp
    rw [e, e2]
    cases r with
    | ok u =>
      have := (ih w').append h1.1
      rw [h1.2] at this
      exact this
    | err e => obtain ⟨p, hp, hd⟩ := h1; exact ⟨p, hp.trans (List.prefix_append _ _), hd⟩
    | panic => obtain ⟨p, hp, hd⟩ := h1; exact ⟨p, hp.trans (List.prefix_append _ _), hd⟩
    | diverge => obtain ⟨p, hp, hd⟩ := h1; exact ⟨p, hp.trans (List.prefix_append _ _), hd⟩

theorem ansi_emitted (s : Str) (st : Style) (a : Ansi (Recorder T)) :
    Emitted adel Ansi.current a (Write.writeStr s st a)
      (if s = [] then [] else ansiSwitchCalls a.current st ++ [s]) (if s = [] then a.current else st) := by
  show Emitted adel Ansi.current a (Ansi.writeStr s st a) _ _
  unfold Ansi.writeStr
  by_cases hs : s = []
  · subst hs
    exact ⟨by simp, rfl⟩
  · rw [if_neg hs, if_neg hs, if_neg (by simpa using hs)]
    have h : Emits adel Ansi.current
        (do Ansi.switchStyle (T := Recorder T) a.current st; Ansi.setCurrent st; Ansi.put s; return ())
        (ansiSwitchCalls a.current st ++ ([] ++ ([s] ++ []))) (id ∘ id ∘ (fun _ => st) ∘ id) :=
      (aswitch _ _).bind fun _ => Emits.bind (fun a => ⟨by simp, rfl⟩)
        fun _ => (aput _).bind fun _ => Emits.pure _
    have h2 := h a
    simp only [List.nil_append, List.append_nil] at h2
    exact h2

theorem html_emitted (s : Str) (st : Style) (a : Html (Recorder T)) :
    Emitted hdel Html.current a (Write.writeStr s st a)
      (if s = [] then [] else htmlSwitchCalls a.current st ++ cutAtSpecials s) (if s = [] then a.current else st) := by
  show Emitted hdel Html.current a (Html.writeStr s st a) _ _
  unfold Html.writeStr
  by_cases hs : s = []
  · subst hs
    exact ⟨by simp, rfl⟩
  · rw [if_neg hs, if_neg hs, if_neg (by simpa using hs)]
    have he : Emits hdel Html.current (Html.putEscaped (T := Recorder T) [] s) (cutAtSpecials s) id := by
      refine (hescaped [] s).cast ?_ (fun _ => rfl)
      cases h : cutAtSpecials s with
      | nil => exact absurd h (cut_ne s)
      | cons r more => simp
    have h : Emits hdel Html.current
        (do Html.switchStyle (T := Recorder T) a.current st; Html.setCurrent st; Html.putEscaped [] s; return ())
        (htmlSwitchCalls a.current st ++ ([] ++ (cutAtSpecials s ++ []))) (id ∘ id ∘ (fun _ => st) ∘ id) :=
      (hswitch _ _).bind fun _ => Emits.bind (fun a => ⟨by simp, rfl⟩)
        fun _ => he.bind fun _ => Emits.pure _
    have h2 := h a
    simp only [List.nil_append, List.append_nil] at h2
    exact h2

theorem ansi_finish (a : Ansi (Recorder T)) :
    Emitted adel (fun _ => ()) a (Ansi.finish a) (ansiSwitchCalls a.current Style.default) () := by
  have h : Ansi.finish a = (if a.current ≠ Style.default then Ansi.put Ansi.resetSeq else pure ()) a := rfl
  rw [h]
  by_cases hc : a.current = Style.default
  · simp only [hc, ansiSwitchCalls_self, ne_eq, not_true_eq_false, if_false]
    exact ⟨by simp, rfl⟩
  · have e : ansiSwitchCalls a.current Style.default = [Ansi.resetSeq] := by simp [ansiSwitchCalls, hc]
    rw [e]
    simp only [ne_eq, hc, not_false_eq_true, if_true]
    have := aput Ansi.resetSeq a
    rcases hp : Ansi.put Ansi.resetSeq a with ⟨r, a'⟩
    rw [hp] at this
    cases r with
    | ok u => exact ⟨this.1, rfl⟩
    | err e => exact this
    | panic => exact this
    | diverge => exact this

theorem html_finish (a : Html (Recorder T)) :
    Emitted hdel (fun _ => ()) a (Html.finish a) (htmlSwitchCalls a.current Style.default) () := by
  have h : Html.finish a = Html.closeSpan a.current a := rfl
  rw [h]
  have e : htmlSwitchCalls a.current Style.default = htmlCloseCalls a.current := by simp [htmlSwitchCalls]
  rw [e]
  have := hclose a.current a
  rcases hp : Html.closeSpan a.current a with ⟨r, a'⟩
  rw [hp] at this
  cases r with
  | ok u => exact ⟨this.1, rfl⟩
  | err e => exact this
  | panic => exact this
  | diverge => exact this

/-- From the two stages to the whole. -/
theorem whole {W : Type} {del : W → List Str} {cur : W → Style} {sw : Style → Style → List Str}
    {enc : Str → List Str} (chs : List Chunk) (w : W) (hdel : del w = []) (hcur : cur w = Style.default)
    (r r' : Res FmtError Unit) (a b : W)
    (h1 : Emitted del cur w (r, a) (bodyFrom sw enc (cur w) chs) (lastStyle (cur w) (flatten chs)))
    (h2 : Emitted del (fun _ => ()) a (r', b) (sw (cur a) Style.default) ()) :
    del a <+: (saidFrom sw enc Style.default chs).map Said.arg ∧
    (r = .ok () → del b <+: (saidFrom sw enc Style.default chs).map Said.arg ∧
      (r' = .ok () → del b = (saidFrom sw enc Style.default chs).map Said.arg)) := by
  rw [hcur] at h1
  rw [said_body]
  constructor
  · obtain ⟨p, hp, h⟩ := h1.extend
    rw [h, hdel]
    exact hp.trans (List.prefix_append _ _)
  · rintro rfl
    have e1 : del a = del w ++ _ := h1.1
    have e2 : cur a = _ := h1.2
    rw [hdel, List.nil_append] at e1
    constructor
    · obtain ⟨p, hp, h⟩ := h2.extend
      rw [h, e1, ← e2]
      exact (List.prefix_append_right_inj _).2 hp
    · rintro rfl
      have e3 : del b = del a ++ _ := h2.1
      rw [e3, e1, e2]

end CallLog

section
variable {T : Type} [FmtWrite T]

open CallLog

/-- C86, `Ansi`, over any stream: text and markup go in calls of their own; every piece of text goes whole in one
call, in order; markup takes no call without a change of style and at most seven for each change (including the one
back at the end). If something fails, the calls made are the first ones of these. -/
theorem C86_ansi (t : T) (chs : List Chunk) (r r' : Res FmtError Unit) (a b : Ansi (Recorder T))
    (h : writeChunks chs (Ansi.new ⟨t, []⟩) = (r, a)) (h' : Ansi.finish a = (r', b)) :
    ∃ said : List Said, texts said = pieces chs ∧ (markups said).length ≤ 7 * changes (flatten chs) ∧
      a.inner.calls <+: said.map Said.arg ∧
      (r = .ok () → b.inner.calls <+: said.map Said.arg ∧
        (r' = .ok () → b.inner.calls = said.map Said.arg)) := by
  refine ⟨saidFrom ansiSwitchCalls (fun s => [s]) Style.default chs, ?_, ?_, ?_⟩
  · rw [said_texts]; exact List.flatMap_singleton' _
  · exact said_markups _ _ 7 ansiSwitchCalls_self ansiSwitchCalls_le _ _
  · have h1 := body_emitted (enc := fun s => [s]) (fun s st w => ansi_emitted (T := T) s st w) chs (Ansi.new ⟨t, []⟩)
    rw [h] at h1
    have h2 := ansi_finish a
    rw [h'] at h2
    exact whole (del := adel) (cur := Ansi.current) chs (Ansi.new ⟨t, []⟩) rfl rfl r r' a b h1 h2

/-- C86, `Html`: text and markup go in calls of their own; a piece of text goes in one call for each character to
escape and at most one for what is before, between and behind them (whether an empty run gets a call is up to the
escaping library, and left open here); markup takes no call without a change of style and at most eight for each
change. -/
theorem C86_html (t : T) (chs : List Chunk) (r r' : Res FmtError Unit) (a b : Html (Recorder T))
    (h : writeChunks chs (Html.new ⟨t, []⟩) = (r, a)) (h' : Html.finish a = (r', b)) :
    ∃ said : List Said, (texts said).filter (· ≠ []) = ((pieces chs).flatMap cutAtSpecials).filter (· ≠ []) ∧
      (texts said).length ≤ ((pieces chs).flatMap cutAtSpecials).length ∧
      (markups said).length ≤ 8 * changes (flatten chs) ∧
      a.inner.calls <+: said.map Said.arg ∧
      (r = .ok () → b.inner.calls <+: said.map Said.arg ∧
        (r' = .ok () → b.inner.calls = said.map Said.arg)) := by
  refine ⟨saidFrom htmlSwitchCalls cutAtSpecials Style.default chs, by rw [said_texts], by rw [said_texts]; omega, ?_, ?_⟩
  · exact said_markups _ _ 8 htmlSwitchCalls_self htmlSwitchCalls_le _ _
  · have h1 := body_emitted (enc := cutAtSpecials) (fun s st w => html_emitted (T := T) s st w) chs (Html.new ⟨t, []⟩)
    rw [h] at h1
    have h2 := html_finish a
    rw [h'] at h2
    exact whole (del := hdel) (cur := Html.current) chs (Html.new ⟨t, []⟩) rfl rfl r r' a b h1 h2

/-- C86: a piece of text without a character to escape goes whole; in any case there are two calls more for each
such character, and together they say the text. -/
theorem C86_html_pieces (s : Str) :
    ((∀ c ∈ s, c ∉ ['<', '>', '&', '"', '\'']) → cutAtSpecials s = [s]) ∧
    (cutAtSpecials s).length = 1 + 2 * s.countP (fun c => ['<', '>', '&', '"', '\''].contains c) ∧
    HtmlReader.read (cutAtSpecials s).flatten = some (paint s Style.default) := by
  have hread : ∀ s, HtmlReader.read (cutAtSpecials s).flatten = some (paint s Style.default) := by
    intro s
    have e : (cutAtSpecials s).flatten = htmlRender (paint s Style.default) := by
      have h0 : htmlSwitch Style.default Style.default = [] := htmlSwitch_self _
      have h1 : htmlRender (paint s Style.default) = s.flatMap htmlEnc := by
        rw [htmlRender, renderWith_paint _ _ htmlSwitch_self, lastStyle_paint]
        cases s <;> simp [h0]
      rw [h1]
      clear h1
      induction s with
      | nil => rfl
      | cons c s ih =>
        cases he : htmlEntity c with
        | some e => rw [cut_some c s e he]; simp [htmlEnc, he, ih]
        | none =>
          rw [cut_none c s he]
          cases hcut : cutAtSpecials s with
          | nil => exact absurd hcut (cut_ne s)
          | cons x l => rw [hcut] at ih; simp [htmlEnc, he, ← ih]
    rw [e, read_htmlRender]
  suffices h : ((∀ c ∈ s, c ∉ ['<', '>', '&', '"', '\'']) → cutAtSpecials s = [s]) ∧
      (cutAtSpecials s).length = 1 + 2 * s.countP (fun c => ['<', '>', '&', '"', '\''].contains c) from
    ⟨h.1, h.2, hread s⟩
  have hspecial : ∀ c, htmlEntity c = none ↔ c ∉ ['<', '>', '&', '"', '\''] := by
    intro c
    unfold htmlEntity
    by_cases h1 : c = '<'
    · simp [h1]
    by_cases h2 : c = '>'
    · simp [h2]
    by_cases h3 : c = '&'
    · simp [h3]
    by_cases h4 : c = '"'
    · simp [h4]
    by_cases h5 : c = '\''
    · simp [h5]
    simp [h1, h2, h3, h4, h5]
  induction s with
  | nil => exact ⟨fun _ => rfl, rfl⟩
  | cons c s ih =>
    cases he : htmlEntity c with
    | some e =>
      have hc : c ∈ ['<', '>', '&', '"', '\''] := by
        apply Classical.byContradiction
        intro hn
        rw [(hspecial c).2 hn] at he
        exact absurd he (by simp)
      refine ⟨fun h => absurd hc (h c (List.mem_cons_self ..)), ?_⟩
      rw [cut_some c s e he, List.countP_cons_of_pos (by simpa using hc)]
      simp only [List.length_cons, ih.2]
      omega
    | none =>
      have hc := (hspecial c).1 he
      rw [cut_none c s he, List.countP_cons_of_neg (by simpa using hc)]
      constructor
      · intro h
        rw [ih.1 fun d hd => h d (List.mem_cons_of_mem _ hd)]
      · rw [← ih.2]
        cases hcut : cutAtSpecials s with
        | nil => exact absurd hcut (cut_ne s)
        | cons x l => rfl

/-- C86, `Plain`: one call for each piece, empty or not. -/
theorem C86_plain (t : T) (chs : List Chunk) (r : Res FmtError Unit) (a : Plain (Recorder T))
    (h : writeChunks chs (Plain.new ⟨t, []⟩) = (r, a)) :
    a.inner.calls <+: chs.map Prod.fst ∧ (r = .ok () → a.inner.calls = chs.map Prod.fst) := by
  have key : ∀ (chs : List Chunk) (w : Plain (Recorder T)),
      Emitted (fun w : Plain (Recorder T) => w.inner.calls) (fun _ => ()) w (writeChunks chs w) (chs.map Prod.fst) () := by
    intro chs
    induction chs with
    | nil => intro w; exact ⟨by simp, rfl⟩
    | cons ch chs ih =>
      intro w
      rw [writeChunks_cons]
      have e : Write.writeStr ch.1 ch.2 w = ((FmtWrite.writeStr ch.1 w.inner.inner).1,
        (⟨⟨(FmtWrite.writeStr ch.1 w.inner.inner).2, w.inner.calls ++ [ch.1]⟩⟩ : Plain (Recorder T))) := rfl
      rw [e]
      cases (FmtWrite.writeStr ch.1 w.inner.inner).1 with
      | ok u => exact Emitted.append (o1 := [ch.1]) rfl (ih _)
      | err u => exact ⟨[ch.1], by simp, rfl⟩
      | panic => exact ⟨[ch.1], by simp, rfl⟩
      | diverge => exact ⟨[ch.1], by simp, rfl⟩
  have h1 := key chs (Plain.new ⟨t, []⟩)
  rw [h] at h1
  constructor
  · obtain ⟨p, hp, e⟩ := h1.extend
    have e : a.inner.calls = [] ++ p := e
    rw [e]; exact hp
  · rintro rfl
    exact h1.1

end

/-! ### byte streams -/

namespace CallLog

variable {T : Type} [StdIoWrite T] {fuel : Nat}

theorem rec_write (hT : TakesAll T) (b : Bytes) (r : IoRecorder T) :
    StdIoWrite.write b r = (.ok b.length, ⟨(StdIoWrite.write b r.inner).2, r.calls ++ [b]⟩) := by
  show ((StdIoWrite.write b r.inner).1, _) = _
  rw [hT]

theorem rec_writeAll (hT : TakesAll T) (b : Bytes) (hb : b ≠ []) (r : IoRecorder T) :
    StdIoWrite.writeAll (fuel + 1) b r = (.ok (), ⟨(StdIoWrite.write b r.inner).2, r.calls ++ [b]⟩) := by
  show stdWriteAll StdIoWrite.write (fuel + 1) b r = _
  unfold stdWriteAll
  rw [if_neg (by simpa using hb), rec_write hT]
  obtain ⟨x, l, rfl⟩ : ∃ x l, b = x :: l := by cases b with | nil => exact absurd rfl hb | cons x l => exact ⟨x, l, rfl⟩
  simp only [List.length_cons, Nat.le_refl, if_true, List.drop_length_cons]
  have e : (x :: l).drop (l.length + 1) = [] := by simp
  rw [e]
  cases fuel <;> rfl

/-- The action returns `Ok`, makes these calls, and leaves the style so. -/
def Makes {A : Type} (x : Act (IoAnsi fuel (IoRecorder T)) IoError A) (out : List Bytes) (g : Style → Style) : Prop :=
  ∀ a, ∃ u b, x a = (.ok u, b) ∧ b.inner.calls = a.inner.calls ++ out ∧ b.current = g a.current

theorem Makes.pure {A : Type} (u : A) : Makes (pure u : Act (IoAnsi fuel (IoRecorder T)) IoError A) [] id :=
  fun a => ⟨u, a, rfl, by simp, rfl⟩

theorem Makes.bind {A B : Type} {x : Act (IoAnsi fuel (IoRecorder T)) IoError A} {f : A → Act _ IoError B}
    {o1 o2 : List Bytes} {g1 g2 : Style → Style} (h1 : Makes x o1 g1) (h2 : ∀ u, Makes (f u) o2 g2) :
    Makes (x >>= f) (o1 ++ o2) (g2 ∘ g1) := by
  intro a
  obtain ⟨u, b, e, e1, e2⟩ := h1 a
  obtain ⟨v, c, e', e1', e2'⟩ := h2 u b
  refine ⟨v, c, ?_, ?_, ?_⟩
  · rw [Act.bind_apply, e]; exact e'
  · rw [e1', e1, List.append_assoc]
  · rw [e2', e2]; rfl

theorem Makes.cast {A : Type} {x : Act (IoAnsi fuel (IoRecorder T)) IoError A} {o1 o2 : List Bytes}
    {g1 g2 : Style → Style} (h : Makes x o1 g1) (ho : o1 = o2) (hg : ∀ s, g1 s = g2 s) : Makes x o2 g2 := by
  subst ho
  have : g1 = g2 := funext hg
  subst this
  exact h

theorem io_put (hT : TakesAll T) (s : Str) (hs : s ≠ []) :
    Makes (IoAnsi.put (fuel := fuel + 1) (T := IoRecorder T) s) [utf8 s] id := by
  intro a
  have e : IoAnsi.put s a = ((StdIoWrite.writeAll (fuel + 1) (utf8 s) a.inner).1,
    ({ a with inner := (StdIoWrite.writeAll (fuel + 1) (utf8 s) a.inner).2 } : IoAnsi (fuel + 1) (IoRecorder T))) := rfl
  rw [rec_writeAll hT _ (by rw [ne_eq, utf8_eq_nil]; exact hs)] at e
  exact ⟨(), _, e, rfl, rfl⟩

theorem io_rest (hT : TakesAll T) (l : List Str) (hl : ∀ s ∈ l, s ≠ []) :
    Makes (IoAnsi.putRest (fuel := fuel + 1) (T := IoRecorder T) l) ((ansiRestCalls l).map utf8) id := by
  induction l with
  | nil => exact Makes.pure _
  | cons x l ih =>
    exact ((io_put hT _ (by decide)).bind fun _ => (io_put hT _ (hl x (List.mem_cons_self ..))).bind fun _ =>
      ih fun s h => hl s (List.mem_cons_of_mem _ h)).cast (by simp [ansiRestCalls]) (fun _ => rfl)

theorem segments_ne (d : StyleDiff) : ∀ s ∈ Ansi.segments d, s ≠ [] := by
  have f : ∀ c, str (AnsiUtil.foreground c) ≠ [] := by intro c; cases c <;> decide
  have g : ∀ c, str (AnsiUtil.background c) ≠ [] := by intro c; cases c <;> decide
  have i : ∀ c, str (AnsiUtil.intensity c) ≠ [] := by intro c; cases c <;> decide
  obtain ⟨a, b, c⟩ := d
  intro s hs
  simp only [Ansi.segments, List.mem_filterMap, id_eq, exists_eq_right, List.mem_cons, List.not_mem_nil, or_false] at hs
  rcases hs with h | h | h
  · cases a with
    | none => exact absurd h (by simp)
    | some c => simp at h; rw [h]; exact f c
  · cases b with
    | none => exact absurd h (by simp)
    | some c => simp at h; rw [h]; exact g c
  · cases c with
    | none => exact absurd h (by simp)
    | some c => simp at h; rw [h]; exact i c

theorem io_switch (hT : TakesAll T) (c s : Style) :
    Makes (IoAnsi.switchStyle (fuel := fuel + 1) (T := IoRecorder T) c s) ((ansiSwitchCalls c s).map utf8) id := by
  unfold IoAnsi.switchStyle ansiSwitchCalls
  by_cases h : c ≠ s ∧ s = Style.default
  · rw [if_pos h, if_pos h]
    exact io_put hT _ (by decide)
  · rw [if_neg h, if_neg h]
    have hne := segments_ne (s.diffFrom c)
    show Makes (IoAnsi.putSegments (Ansi.segments (s.diffFrom c))) _ id
    cases hl : Ansi.segments (s.diffFrom c) with
    | nil => exact Makes.pure _
    | cons x l =>
      rw [hl] at hne
      exact ((io_put hT _ (by decide)).bind fun _ => (io_put hT _ (hne x (List.mem_cons_self ..))).bind fun _ =>
        (io_rest hT l fun s h => hne s (List.mem_cons_of_mem _ h)).bind fun _ => io_put hT _ (by decide)).cast
        (by simp [ansiSegCalls]) (fun _ => rfl)

theorem io_write (hT : TakesAll T) (b : Bytes) (st : Style) (a : IoAnsi (fuel + 1) (IoRecorder T)) :
    ∃ a', IoAnsi.write b st a = (.ok b.length, a') ∧
      a'.inner.calls = a.inner.calls ++ ((ansiSwitchCalls a.current st).map utf8 ++ [b]) ∧ a'.current = st := by
  obtain ⟨u, a1, e1, e2, -⟩ := io_switch (fuel := fuel) hT a.current st a
  refine ⟨⟨⟨(StdIoWrite.write b a1.inner.inner).2, a1.inner.calls ++ [b]⟩, st⟩, ?_, ?_, rfl⟩
  · unfold IoAnsi.write
    rw [Act.bind_apply, show IoAnsi.getCurrent a = (.ok a.current, a) from rfl]
    show (IoAnsi.switchStyle a.current st >>= fun _ => _) a = _
    rw [Act.bind_apply, e1]
    show IoAnsi.onInner (StdIoWrite.write b) (⟨a1.inner, st⟩ : IoAnsi (fuel + 1) (IoRecorder T)) = _
    unfold IoAnsi.onInner
    rw [rec_write hT]
  · show a1.inner.calls ++ [b] = _
    rw [e2, List.append_assoc]

theorem io_writeAll (hT : TakesAll T) (b : Bytes) (hb : b ≠ []) (st : Style) (a : IoAnsi (fuel + 1) (IoRecorder T)) :
    ∃ a', IoWrite.writeAll b st a = (.ok (), a') ∧
      a'.inner.calls = a.inner.calls ++ ((ansiSwitchCalls a.current st).map utf8 ++ [b]) ∧ a'.current = st := by
  obtain ⟨a', e, e1, e2⟩ := io_write (fuel := fuel) hT b st a
  refine ⟨a', ?_, e1, e2⟩
  show defaultWriteAll IoAnsi.write (fuel + 1) b st a = _
  unfold defaultWriteAll
  rw [if_neg (by simpa using hb), e]
  obtain ⟨x, l, rfl⟩ : ∃ x l, b = x :: l := by cases b with | nil => exact absurd rfl hb | cons x l => exact ⟨x, l, rfl⟩
  simp only [List.length_cons, Nat.le_refl, if_true]
  have e : (x :: l).drop (l.length + 1) = [] := by simp
  rw [e]
  cases fuel <;> rfl

theorem io_chunks (hT : TakesAll T) (chs : List Chunk) (w : ErrorTrap (IoAnsi (fuel + 1) (IoRecorder T))) :
    ∃ w', writeChunks chs w = (.ok (), w') ∧
      w'.inner.inner.calls = w.inner.inner.calls ++
        (bodyFrom ansiSwitchCalls (fun s => [s]) w.inner.current chs).map utf8 ∧
      w'.inner.current = lastStyle w.inner.current (flatten chs) := by
  induction chs generalizing w with
  | nil => exact ⟨w, rfl, by simp [bodyFrom], rfl⟩
  | cons ch chs ih =>
    rw [writeChunks_cons]
    conv => rhs; ext; rhs; rw [flatten_cons, lastStyle_append, lastStyle_paint]; unfold bodyFrom
    by_cases h : ch.1 = []
    · have e : Write.writeStr ch.1 ch.2 w = (.ok (), w) := by rw [h]; rfl
      rw [e]
      simp only [h, if_true, List.isEmpty_nil]
      exact ih w
    · obtain ⟨a', e, e1, e2⟩ := io_writeAll (fuel := fuel) hT (utf8 ch.1) (by rw [ne_eq, utf8_eq_nil]; exact h) ch.2 w.inner
      have e' : Write.writeStr ch.1 ch.2 w = (.ok (), { w with inner := a' }) := trap_ok _ _ _ _ e
      rw [e']
      obtain ⟨w', g, g1, g2⟩ := ih { w with inner := a' }
      refine ⟨w', g, ?_, ?_⟩
      · rw [g1, if_neg h]
        show a'.inner.calls ++ (bodyFrom _ _ a'.current chs).map utf8 = _
        rw [e1, e2]
        simp
      · rw [g2, show List.isEmpty ch.1 = false by simpa using h]
        show lastStyle a'.current _ = _
        rw [e2]
        rfl

end CallLog

section
variable {T : Type} [StdIoWrite T] {fuel : Nat}

open CallLog

/-- C86, `io::Ansi` over a stream that takes all it is offered (so that each call counted here is, on an unbuffered
stream, one system call): `write!` and `finish` make exactly one call of `write` for each piece of text, with the
whole piece, and at most seven for each change of style. -/
theorem C86_io_ansi (hT : TakesAll T) (args : Arguments) (t : T) :
    ∃ said : List Said, texts said = pieces (textOf args) ∧
      (markups said).length ≤ 7 * changes (flatten (textOf args)) ∧
      ∃ a b : IoAnsi (fuel + 1) (IoRecorder T), IoWrite.writeFmt args (IoAnsi.new ⟨t, []⟩) = (toldIo (endOf args), a) ∧
        IoAnsi.finish a = (.ok (), b) ∧ b.inner.calls = said.map fun x => utf8 x.arg := by
  refine ⟨saidFrom ansiSwitchCalls (fun s => [s]) Style.default (textOf args), ?_, ?_, ?_⟩
  · rw [said_texts]; exact List.flatMap_singleton' _
  · exact said_markups _ _ 7 ansiSwitchCalls_self ansiSwitchCalls_le _ _
  · have hacc : Accepting (ErrorTrap (IoAnsi (fuel + 1) (IoRecorder T))) := by
      intro s st w
      obtain ⟨w', e, -⟩ := io_chunks (fuel := fuel) hT [(s, st)] w
      rw [writeChunks_cons] at e
      rcases hr : (Write.writeStr s st : Act (ErrorTrap (IoAnsi (fuel + 1) (IoRecorder T))) FmtError Unit) w with ⟨r, v⟩
      rw [hr] at e
      cases r with
      | ok u => rfl
      | err e' => exact absurd (Prod.mk.inj e).1 (by simp)
      | panic => exact absurd (Prod.mk.inj e).1 (by simp)
      | diverge => exact absurd (Prod.mk.inj e).1 (by simp)
    obtain ⟨w', e, e1, e2⟩ := io_chunks (fuel := fuel) hT (textOf args) (ErrorTrap.new (IoAnsi.new ⟨t, []⟩))
    have hno : NoErr (ErrorTrap (IoAnsi (fuel + 1) (IoRecorder T))) := by
      intro s st w; rw [hacc]; simp
    have g := io_writeFmt_fine hno args _ w' e
    have e2' : w'.inner.current = lastStyle Style.default (flatten (textOf args)) := e2
    have e1' : w'.inner.inner.calls = [] ++
      (bodyFrom ansiSwitchCalls (fun s => [s]) Style.default (textOf args)).map utf8 := e1
    refine ⟨w'.inner, ?_⟩
    have hs : (saidFrom ansiSwitchCalls (fun s => [s]) Style.default (textOf args)).map (fun x => utf8 x.arg) =
        (bodyFrom ansiSwitchCalls (fun s => [s]) Style.default (textOf args) ++
          ansiSwitchCalls (lastStyle Style.default (flatten (textOf args))) Style.default).map utf8 := by
      rw [← said_body, List.map_map]
      rfl
    by_cases hc : w'.inner.current = Style.default
    · refine ⟨w'.inner, g, ?_, ?_⟩
      · show (if w'.inner.current ≠ Style.default then IoAnsi.put (str "\x1b[0m") else pure ()) w'.inner = _
        rw [if_neg (by simpa using hc)]
        rfl
      · rw [hs, e1', ← e2', hc, ansiSwitchCalls_self]
        simp
    · obtain ⟨u, b, f, f1, -⟩ := io_put (fuel := fuel) hT (str "\x1b[0m") (by decide) w'.inner
      refine ⟨b, g, ?_, ?_⟩
      · show (if w'.inner.current ≠ Style.default then IoAnsi.put (str "\x1b[0m") else pure ()) w'.inner = _
        rw [if_pos hc, f]
      · rw [hs, f1, e1', ← e2']
        simp [ansiSwitchCalls, hc, Ansi.resetSeq]

/-- C86, `io::Plain` over such a stream: exactly one call for each piece that is not empty. -/
theorem C86_io_plain (hT : TakesAll T) (args : Arguments) (t : T) :
    ∃ a : IoPlain (fuel + 1) (IoRecorder T), IoWrite.writeFmt args (IoPlain.new ⟨t, []⟩) = (toldIo (endOf args), a) ∧
      a.inner.calls = (pieces (textOf args)).map utf8 := by
  have one : ∀ s st (w : ErrorTrap (IoPlain (fuel + 1) (IoRecorder T))), ∃ w', Write.writeStr s st w = (.ok (), w') ∧
      w'.inner.inner.calls = w.inner.inner.calls ++ (if s = [] then [] else [utf8 s]) := by
    intro s st w
    have e : ∀ r t, StdIoWrite.writeAll (fuel + 1) (utf8 s) w.inner.inner = (r, t) →
        IoWrite.writeAll (utf8 s) st w.inner = (r, (⟨t⟩ : IoPlain (fuel + 1) (IoRecorder T))) := by
      intro r t h
      show IoPlain.onInner (StdIoWrite.writeAll (fuel + 1) (utf8 s)) w.inner = _
      unfold IoPlain.onInner
      rw [h]
    by_cases h : s = []
    · subst h
      exact ⟨w, trap_ok _ _ _ _ (e _ _ rfl), by simp⟩
    · exact ⟨_, trap_ok _ _ _ _ (e _ _ (rec_writeAll hT _ (by rw [ne_eq, utf8_eq_nil]; exact h) _)), by rw [if_neg h]⟩
  have hno : NoErr (ErrorTrap (IoPlain (fuel + 1) (IoRecorder T))) := by
    intro s st w
    obtain ⟨w', e, -⟩ := one s st w
    rw [e]; simp
  have all : ∀ (chs : List Chunk) (w : ErrorTrap (IoPlain (fuel + 1) (IoRecorder T))), ∃ w',
      writeChunks chs w = (.ok (), w') ∧
      w'.inner.inner.calls = w.inner.inner.calls ++ (pieces chs).map utf8 := by
    intro chs
    induction chs with
    | nil => intro w; exact ⟨w, rfl, by simp [pieces]⟩
    | cons ch chs ih =>
      intro w
      obtain ⟨w1, e, e1⟩ := one ch.1 ch.2 w
      obtain ⟨w2, g, g1⟩ := ih w1
      refine ⟨w2, by rw [writeChunks_cons, e]; exact g, ?_⟩
      rw [g1, e1]
      by_cases h : ch.1 = [] <;> simp [pieces, h]
  obtain ⟨w', e, e1⟩ := all (textOf args) (ErrorTrap.new (IoPlain.new ⟨t, []⟩))
  exact ⟨w'.inner, io_writeFmt_fine hno args _ w' e, e1⟩

end

/-- Three pieces, one of them empty; the last change needs only one call. -/
example : (let chs : List Chunk := [(['a', 'b'], ⟨.Red, .Blue, .Bold⟩), ([], Style.default), (['<', 'c'], Style.default)]
    (Ansi.finish (writeChunks chs (Ansi.new (⟨StdString.new, []⟩ : Recorder StdString))).2).2.inner.calls =
      [str "\x1b[", str "31", str ";", str "44", str ";", str "1", str "m", ['a', 'b'], str "\x1b[0m", ['<', 'c']] ∧
    changes (flatten chs) = 2 ∧ pieces chs = [['a', 'b'], ['<', 'c']] ∧
    (Html.finish (writeChunks chs (Html.new (⟨StdString.new, []⟩ : Recorder StdString))).2).2.inner.calls.filter (· ≠ []) =
      [str "<span style=", str "color:red", str ";", str "background-color:blue", str ";", str "font-weight:bolder",
       str ">", ['a', 'b'], str "</span>", str "&lt;", ['c']] ∧
    (writeChunks chs (Plain.new (⟨StdString.new, []⟩ : Recorder StdString))).2.inner.calls =
      [['a', 'b'], [], ['<', 'c']]) := by decide +kernel

/-- A stream that fails: the calls made are the first ones. -/
example : (let chs : List Chunk := [(['a', 'b'], ⟨.Red, .Blue, .Bold⟩), (['c'], Style.default)]
    (writeChunks chs (Ansi.new (⟨⟨[], 5⟩, []⟩ : Recorder LimitedSink))).1 = .err () ∧
    (writeChunks chs (Ansi.new (⟨⟨[], 5⟩, []⟩ : Recorder LimitedSink))).2.inner.calls =
      [str "\x1b[", str "31", str ";", str "44"]) := by decide +kernel

/-- A stream that takes everything, such as a `Vec<u8>`. -/
structure ByteVec where
  got : Bytes

instance : StdIoWrite ByteVec where
  write b t := (.ok b.length, ⟨t.got ++ b⟩)
  flush t := (.ok (), t)

/-- The calls on a byte stream. -/
example : TakesAll ByteVec ∧
    (let x : Arguments := ⟨.within ⟨fun s => { s with foreground := .Red }⟩ (.writeStr ['é'] .done)
      fun _ => .writeStr [] fun _ => .writeStr ['b', 'c'] .done⟩
    (IoAnsi.finish (IoWrite.writeFmt x (IoAnsi.new ⟨⟨[]⟩, []⟩ : IoAnsi 1 (IoRecorder ByteVec))).2).2.inner.calls =
      [utf8 (str "\x1b["), utf8 (str "31"), utf8 (str "m"), [0xc3, 0xa9], utf8 (str "\x1b[0m"), [98, 99]] ∧
    (IoWrite.writeFmt x (IoPlain.new ⟨⟨[]⟩, []⟩ : IoPlain 1 (IoRecorder ByteVec))).2.inner.calls =
      [[0xc3, 0xa9], [98, 99]]) :=
  ⟨fun _ _ => rfl, by decide +kernel⟩

end Stylish.Props
