import Verif.Lemmas.Stained
import Verif.Props.Vt
/-
C104: ANSI output on a terminal that something else left in another graphic rendition.
-/

namespace Stylish.Props

open Spec Vt

variable {T : Type} [FmtWrite T]

/-! ## C104 -/

namespace Stained

theorem at_start (kind : TermKind) (p : Pen) : lookFrom kind p [] Style.default = p := by
  cases kind <;> rfl

theorem feed_wrote (kind : Kind) (p : Pen) (es : List Event) (t : Styled) (hin : ∀ x ∈ t, x.1 ∉ acts kind) :
    Screen.feed kind ⟨.ground, p, es⟩ (renderWith ansiSwitch plainEnc Style.default t) =
      ⟨.ground, lookFrom kind.boldFaint p (t.map Prod.snd) (lastStyle Style.default t),
        es ++ seenFrom kind.boldFaint p [] t⟩ := by
  have h := (Stylish.Stained.render_from kind p t hin (.inl ⟨rfl, rfl⟩ :
    Stylish.Stained.Last [] Style.default) es).1
  rw [at_start] at h
  simpa using h

theorem look_default (kind : TermKind) (p : Pen) (styles : List Style) :
    lookFrom kind p (styles ++ [Style.default]) Style.default =
      if styles.any (· ≠ Style.default) then Pen.plain else p := by
  have hc : cleaned (styles ++ [Style.default]) = styles.any (· ≠ Style.default) := by
    rw [cleaned, Stylish.Stained.back_snoc]
    simp [cleaned, back]
    intro h
    induction styles with
    | nil => simp at h
    | cons x xs ih =>
      by_cases hx : x = Style.default
      · subst hx
        simp at h ⊢
        simpa using ih (by simpa using h)
      · exact ⟨x, by simp, hx⟩
  have hs : strong (styles ++ [Style.default]) = [] := by rw [Stylish.Stained.strong_snoc]; rfl
  by_cases h : styles.any (· ≠ Style.default)
  · rw [if_pos h]
    rw [h] at hc
    simp only [lookFrom, weights, hc, hs]
    cases kind <;> rfl
  · rw [if_neg h]
    have h' : ∀ x ∈ styles, x = Style.default := by simpa using h
    have hc' : cleaned (styles ++ [Style.default]) = false := by rw [hc]; simpa using h
    have e : styles = List.replicate styles.length Style.default := List.eq_replicate_iff.2 ⟨rfl, h'⟩
    have hb : back (· = .Normal) ((styles ++ [Style.default]).map Style.intensity) = false := by
      rw [e]
      simp only [back, List.map_append, List.map_replicate, List.map_cons, List.map_nil]
      rw [List.dropWhile_append_of_pos]
      · rfl
      · intro a ha
        rw [List.eq_of_mem_replicate ha]
        rfl
    have any : ∀ (q : Style → Bool), q Style.default = false → (styles ++ [Style.default]).any q = false := by
      intro q hq
      simp only [List.any_append, List.any_cons, List.any_nil, Bool.or_false, hq]
      rw [List.any_eq_false]
      intro x hx
      rw [h' x hx, hq]
      simp
    simp only [lookFrom, weights, hc', hs, hb, any (fun x => decide (x.foreground ≠ .Default)) rfl,
      any (fun x => decide (x.background ≠ .Default)) rfl, any (fun x => decide (x.intensity ≠ .Normal)) rfl]
    cases kind <;> simp

theorem lastStyle_snoc (cur : Style) (t : Styled) (x : Char × Style) : lastStyle cur (t ++ [x]) = x.2 := by
  induction t generalizing cur with
  | nil => rfl
  | cons y t ih => exact ih _

theorem lastStyle_getLastD (t : Styled) : lastStyle Style.default t = (t.map Prod.snd).getLastD Style.default := by
  rcases List.eq_nil_or_concat t with rfl | ⟨init, x, rfl⟩
  · rfl
  · rw [List.concat_eq_append, lastStyle_snoc, List.map_append]
    simp

end Stained

/-- C104: whatever rendition `p` a terminal is in when the output of a writer begins, it shows the text of the output
(without control characters that begin something longer), and nothing else, every character looking as `lookFrom` says
for `p` and the styles up to there; and that is the rendition it is in afterwards. -/
theorem C104_written (k : FmtSink T) (t : T) (chs : List Chunk) (out : Str) (h : AnsiWrote k t chs out) (kind : Kind)
    (hin : ∀ x ∈ flatten chs, x.1 ∉ acts kind) (p : Pen) (es : List Event) :
    Screen.feed kind ⟨.ground, p, es⟩ out =
      ⟨.ground, lookFrom kind.boldFaint p ((flatten chs).map Prod.snd)
          (((flatten chs).map Prod.snd).getLastD Style.default),
        es ++ seenFrom kind.boldFaint p [] (flatten chs)⟩ := by
  rw [ansiWrote_eq k t chs out h, Stained.feed_wrote kind p es _ hin, Stained.lastStyle_getLastD]

/-- C104: after `finish` the terminal has shown the same, and it is in its default rendition if any of the text was in a
style, whatever it was in before; if none was, it is still in that. -/
theorem C104_finished (k : FmtSink T) (t : T) (chs : List Chunk) (out : Str) (h : AnsiFinished k t chs out)
    (kind : Kind) (hin : ∀ x ∈ flatten chs, x.1 ∉ acts kind) (p : Pen) (es : List Event) :
    Screen.feed kind ⟨.ground, p, es⟩ out =
      ⟨.ground, if (flatten chs).any (fun x => x.2 ≠ Style.default) then Pen.plain else p,
        es ++ seenFrom kind.boldFaint p [] (flatten chs)⟩ := by
  have hl := (Stylish.Stained.render_from kind p (flatten chs) hin (.inl ⟨rfl, rfl⟩ :
    Stylish.Stained.Last [] Style.default) es).2
  rw [ansiFinished_eq k t chs out h, ansiRender, Vt.feed_append, Stained.feed_wrote kind p es _ hin]
  rw [List.nil_append] at hl
  rw [Stylish.Stained.switch_from kind p hl, Stained.look_default, List.any_map]
  rfl

/-- C104: the text is shown as it should be exactly if every character of it to be shown looks right. -/
theorem C104_exact (k : FmtSink T) (t : T) (chs : List Chunk) (out : Str)
    (h : AnsiWrote k t chs out ∨ AnsiFinished k t chs out) (kind : Kind)
    (hin : ∀ x ∈ flatten chs, x.1 ∉ acts kind) (p : Pen) :
    (Screen.feed kind ⟨.ground, p, []⟩ out).events = (flatten chs).map expected ↔
      ∀ pre c st post, flatten chs = pre ++ (c, st) :: post → isControl c = false →
        lookFrom kind.boldFaint p (pre.map Prod.snd ++ [st]) st = Pen.ofStyle st := by
  have hs : (Screen.feed kind ⟨.ground, p, []⟩ out).events = seenFrom kind.boldFaint p [] (flatten chs) := by
    rcases h with h | h
    · rw [C104_written k t chs out h kind hin]; rfl
    · rw [C104_finished k t chs out h kind hin]; rfl
  rw [hs]
  have key : ∀ (t : Styled) (before : List Style), seenFrom kind.boldFaint p before t = t.map expected ↔
      ∀ pre c st post, t = pre ++ (c, st) :: post → isControl c = false →
        lookFrom kind.boldFaint p (before ++ (pre.map Prod.snd ++ [st])) st = Pen.ofStyle st := by
    intro t
    induction t with
    | nil => intro before; simp [seenFrom]
    | cons x t ih =>
      obtain ⟨c, st⟩ := x
      intro before
      rw [seenFrom, List.map_cons, List.cons.injEq, ih]
      constructor
      · rintro ⟨h1, h2⟩ pre c' st' post e hc
        cases pre with
        | nil =>
          obtain ⟨e, -⟩ := List.cons.inj e
          obtain ⟨rfl, rfl⟩ := Prod.mk.inj e
          simp only [expected, hc, Bool.false_eq_true, if_false, Event.print.injEq, true_and] at h1
          simpa using h1
        | cons y pre =>
          obtain ⟨rfl, e'⟩ := List.cons.inj e
          simpa using h2 pre c' st' post e' hc
      · intro h
        constructor
        · cases hc : isControl c with
          | true => simp [expected, hc]
          | false =>
            have := h [] c st t rfl hc
            simp only [List.map_nil, List.nil_append] at this
            simp [expected, hc, this]
        · intro pre c' st' post e hc
          have := h ((c, st) :: pre) c' st' post (by rw [e]; rfl) hc
          simpa using this
  simpa using key (flatten chs) []

/-- C104: on a terminal where bold and faint exclude each other, a character looks right exactly if the text had gone
back from some style to none at all by then, or else: nothing but colours, bold and faint was set in `p`, and `p` was
default in whatever the text has not set itself by then. -/
theorem C104_right (p : Pen) (styles : List Style) (st : Style) :
    lookFrom .exclusive p (styles ++ [st]) st = Pen.ofStyle st ↔
      cleaned (styles ++ [st]) = true ∨
      ({ p with fg := .default, bg := .default, bold := false, faint := false } = Pen.plain ∧
        (p.fg = .default ∨ (styles ++ [st]).any (·.foreground ≠ .Default) = true) ∧
        (p.bg = .default ∨ (styles ++ [st]).any (·.background ≠ .Default) = true) ∧
        ((p.bold = false ∧ p.faint = false) ∨ (styles ++ [st]).any (·.intensity ≠ .Normal) = true)) := by
  obtain ⟨fg, bg, bold, faint, italic, underline, blink, inverse, hidden, strike⟩ := p
  cases hc : cleaned (styles ++ [st]) with
  | true => simp [lookFrom, weights, hc, Pen.ofStyle]
  | false =>
    have e : ∀ {α : Type} [DecidableEq α] (f : Style → α) (d : α),
        (styles ++ [st]).any (fun x => decide (f x ≠ d)) = false → f st = d := by
      intro α _ f d h
      rw [List.any_eq_false] at h
      simpa using h st (by simp)
    simp only [lookFrom, weights, hc, Pen.ofStyle, Bool.false_eq_true, false_or, if_false, if_true]
    have f1 := e (f := Style.foreground) (d := .Default)
    have f2 := e (f := Style.background) (d := .Default)
    have f3 := e (f := Style.intensity) (d := .Normal)
    generalize (styles ++ [st]).any (fun x => decide (x.foreground ≠ .Default)) = a at f1 ⊢
    generalize (styles ++ [st]).any (fun x => decide (x.background ≠ .Default)) = b at f2 ⊢
    generalize (styles ++ [st]).any (fun x => decide (x.intensity ≠ .Normal)) = c at f3 ⊢
    cases a <;> cases b <;> cases c <;> simp_all [Pen.plain, ink, and_comm, and_left_comm, and_assoc]

/-- C104: text in no style at all is shown in the rendition the terminal was in, and leaves it so, also after `finish`:
the default style is never asked for, only returned to. -/
theorem C104_unstyled (k : FmtSink T) (t : T) (chs : List Chunk) (out : Str)
    (h : AnsiWrote k t chs out ∨ AnsiFinished k t chs out) (kind : Kind)
    (hin : ∀ x ∈ flatten chs, x.1 ∉ acts kind) (hd : ∀ x ∈ flatten chs, x.2 = Style.default) (p : Pen)
    (es : List Event) :
    Screen.feed kind ⟨.ground, p, es⟩ out =
      ⟨.ground, p, es ++ (flatten chs).map fun x => if isControl x.1 then .execute x.1 else .print x.1 p⟩ := by
  have hl : lastStyle Style.default (flatten chs) = Style.default := by
    have key : ∀ t : Styled, (∀ x ∈ t, x.2 = Style.default) → lastStyle Style.default t = Style.default := by
      intro t ht
      induction t with
      | nil => rfl
      | cons x t ih => rw [lastStyle, ht x (by simp)]; exact ih fun y hy => ht y (by simp [hy])
    exact key _ hd
  have hlook : ∀ styles : List Style, (∀ x ∈ styles, x = Style.default) →
      lookFrom kind.boldFaint p (styles ++ [Style.default]) Style.default = p := by
    intro styles hs
    rw [Stained.look_default, if_neg]
    simpa using hs
  have hseen : ∀ (t : Styled) (before : List Style), (∀ x ∈ t, x.2 = Style.default) →
      (∀ x ∈ before, x = Style.default) → seenFrom kind.boldFaint p before t =
        t.map fun x => if isControl x.1 then .execute x.1 else .print x.1 p := by
    intro t
    induction t with
    | nil => intros; rfl
    | cons x t ih =>
      intro before ht hb
      obtain ⟨c, st⟩ := x
      obtain rfl : st = Style.default := ht (c, st) (by simp)
      rw [seenFrom, hlook before hb, ih _ (fun y hy => ht y (by simp [hy]))]
      · rfl
      · intro x hx
        rcases List.mem_append.1 hx with h | h
        · exact hb x h
        · simpa using h
  rcases h with h | h
  · rw [C104_written k t chs out h kind hin, hseen _ _ hd (by simp), ← Stained.lastStyle_getLastD, hl]
    congr 1
    rcases List.eq_nil_or_concat (flatten chs) with e | ⟨init, x, e⟩
    · rw [e]; exact Stained.at_start _ _
    · rw [e, List.concat_eq_append, List.map_append, List.map_cons, List.map_nil, hd x (by rw [e]; simp), hlook]
      intro y hy
      obtain ⟨z, hz, rfl⟩ := List.mem_map.1 hy
      exact hd z (by rw [e]; simp [hz])
  · rw [C104_finished k t chs out h kind hin, hseen _ _ hd (by simp), if_neg]
    simpa using fun a b hab => hd (a, b) hab

/-- C104: whatever rendition the terminal was in, after a finished output with some of it in a style, the output of the
next writer is shown as it should be. -/
theorem C104_next {U : Type} [FmtWrite U] (k : FmtSink T) (t : T) (chs : List Chunk) (out : Str)
    (h : AnsiFinished k t chs out) (k' : FmtSink U) (t' : U) (chs' : List Chunk) (out' : Str)
    (h' : AnsiWrote k' t' chs' out' ∨ AnsiFinished k' t' chs' out') (kind : Kind)
    (hin : ∀ x ∈ flatten chs ++ flatten chs', x.1 ∉ acts kind)
    (hst : ∃ x ∈ flatten chs, x.2 ≠ Style.default)
    (hb : kind.boldFaint = .exclusive ∨ ¬ Muddled (flatten chs')) (p : Pen) :
    (Screen.feed kind ⟨.ground, p, []⟩ (out ++ out')).events =
      seenFrom kind.boldFaint p [] (flatten chs) ++ (flatten chs').map expected := by
  have h2 := (C71_exact k' t' chs' out' h' kind).2 ⟨fun x hx => hin x (by simp [hx]), hb⟩
  have hin1 : ∀ x ∈ flatten chs, x.1 ∉ acts kind := fun x hx => hin x (by simp [hx])
  have hin2 : ∀ x ∈ flatten chs', x.1 ∉ acts kind := fun x hx => hin x (by simp [hx])
  rw [Vt.feed_append, C104_finished k t chs out h kind hin1, if_pos (by simpa using hst)]
  have e : ∀ es, (Screen.feed kind ⟨.ground, Pen.plain, es⟩ out').events =
      es ++ seenFrom kind.boldFaint Pen.plain [] (flatten chs') := by
    intro es
    rcases h' with h' | h'
    · rw [C104_written k' t' chs' out' h' kind hin2]
    · rw [C104_finished k' t' chs' out' h' kind hin2]
  have h3 : (Screen.feed kind ⟨.ground, Pen.plain, []⟩ out').events = (flatten chs').map expected := h2
  rw [e] at h3
  rw [e, ← h3]
  rfl

/-- C104: a writer that was dropped without `finish`, its text ending in the style `last`, leaves that style to whoever
writes next: on a terminal where bold and faint exclude each other, the output of the next writer is shown as from the
rendition of `last`. -/
theorem C104_dropped {U : Type} [FmtWrite U] (k : FmtSink T) (t : T) (chs : List Chunk) (out : Str)
    (h : AnsiWrote k t chs out) (k' : FmtSink U) (t' : U) (chs' : List Chunk) (out' : Str)
    (h' : AnsiWrote k' t' chs' out' ∨ AnsiFinished k' t' chs' out') (kind : Kind) (hk : kind.boldFaint = .exclusive)
    (hin : ∀ x ∈ flatten chs ++ flatten chs', x.1 ∉ acts kind) (init : Styled) (c : Char) (last : Style)
    (hl : flatten chs = init ++ [(c, last)]) :
    (Screen.fresh.feed kind (out ++ out')).events =
      (flatten chs).map expected ++ seenFrom .exclusive (Pen.ofStyle last) [] (flatten chs') := by
  have hin1 : ∀ x ∈ flatten chs, x.1 ∉ acts kind := fun x hx => hin x (by simp [hx])
  have hin2 : ∀ x ∈ flatten chs', x.1 ∉ acts kind := fun x hx => hin x (by simp [hx])
  have h1 := (C71_exact k t chs out (.inl h) kind).2 ⟨hin1, .inl hk⟩
  have hw := C104_written k t chs out h kind hin1 Pen.plain []
  have hpen : lookFrom kind.boldFaint Pen.plain ((flatten chs).map Prod.snd)
      (((flatten chs).map Prod.snd).getLastD Style.default) = Pen.ofStyle last := by
    rw [← Stained.lastStyle_getLastD, hl, Stained.lastStyle_snoc, hk, List.map_append]
    exact (C104_right _ _ _).2 (.inr ⟨rfl, .inl rfl, .inl rfl, .inl ⟨rfl, rfl⟩⟩)
  have h2 : Screen.fresh.feed kind out = ⟨.ground, Pen.ofStyle last, (flatten chs).map expected⟩ := by
    have e : Screen.fresh = ⟨.ground, Pen.plain, []⟩ := rfl
    rw [e] at h1 ⊢
    rw [hw] at h1 ⊢
    rw [hpen]
    simp only at h1
    rw [h1]
  rw [Vt.feed_append, h2, ← hk]
  rcases h' with h' | h'
  · rw [C104_written k' t' chs' out' h' kind hin2]
  · rw [C104_finished k' t' chs' out' h' kind hin2]

/-- C104 for `ansi::format`: the same for its result, printed on such a terminal. -/
theorem C104_format (args : Arguments) (log : List Chunk) (out : Str)
    (hargs : writes args.f Style.default FormatterArgs.default = (log, .ok ()))
    (hout : ansiFormat args = .ok out) (kind : Kind) (hin : ∀ x ∈ flatten log, x.1 ∉ acts kind) (p : Pen)
    (es : List Event) :
    Screen.feed kind ⟨.ground, p, es⟩ out =
      ⟨.ground, if (flatten log).any (fun x => x.2 ≠ Style.default) then Pen.plain else p,
        es ++ seenFrom kind.boldFaint p [] (flatten log)⟩ := by
  rw [ansiFormat_eq, denote, hargs] at hout
  simp only [formatOutcome, Res.ok.injEq] at hout
  have h := (ansiFinished_exists stringSink stringSink_accepting StdString.new log).2
  rw [hout] at h
  exact C104_finished stringSink StdString.new log out h kind hin p es

/-- C104 for `io::Ansi`: the same for the bytes sent, read as UTF-8. -/
theorem C104_io {U : Type} [StdIoWrite U] (k : IoSink U) (t : U) (calls : List Arguments) (logs : List (List Chunk))
    (hl : Logs calls logs) (bytes : Bytes) (kind : Kind) (hin : ∀ x ∈ flatten logs.flatten, x.1 ∉ acts kind) (p : Pen)
    (es : List Event) :
    (IoAnsiFmtSent k t calls bytes → ∃ out, decodeUtf8 bytes = some out ∧
      Screen.feed kind ⟨.ground, p, es⟩ out =
        ⟨.ground, lookFrom kind.boldFaint p ((flatten logs.flatten).map Prod.snd)
            (((flatten logs.flatten).map Prod.snd).getLastD Style.default),
          es ++ seenFrom kind.boldFaint p [] (flatten logs.flatten)⟩) ∧
    (IoAnsiFmtFinished k t calls bytes → ∃ out, decodeUtf8 bytes = some out ∧
      Screen.feed kind ⟨.ground, p, es⟩ out =
        ⟨.ground, if (flatten logs.flatten).any (fun x => x.2 ≠ Style.default) then Pen.plain else p,
          es ++ seenFrom kind.boldFaint p [] (flatten logs.flatten)⟩) := by
  constructor
  · intro h
    obtain ⟨out, h1, h2⟩ := C65_ansi_is_text k t calls logs hl bytes h
    exact ⟨out, h1, C104_written _ _ _ _ h2 kind hin p es⟩
  · intro h
    obtain ⟨out, h1, h2⟩ := C65_ansi_finished_is_text k t calls logs hl bytes h
    exact ⟨out, h1, C104_finished _ _ _ _ h2 kind hin p es⟩

/-! ### Samples -/

/-- Someone left the terminal in green, underlined; the text is plain, then red, then bold, then plain, then red: only
from the second plain character on is everything right. On both kinds of terminals. -/
example :
    let p : Pen := { Pen.plain with fg := .indexed 2, underline := true }
    let red : Style := ⟨.Red, .Default, .Normal⟩
    let bold : Style := ⟨.Default, .Default, .Bold⟩
    let chs : List Chunk := [(str "a", Style.default), (str "b\n", red), (str "c", bold), (str "d", Style.default),
      (str "e", red)]
    (∃ out, AnsiFinished stringSink StdString.new chs out) ∧ (∀ kind, ∀ x ∈ flatten chs, x.1 ∉ acts kind) ∧
    ∀ kind, seenFrom kind p [] (flatten chs) =
      [.print 'a' p, .print 'b' { p with fg := .indexed 1 }, .execute '\n',
       .print 'c' { p with fg := .default, bold := true }, .print 'd' Pen.plain,
       .print 'e' { Pen.plain with fg := .indexed 1 }] := by
  refine ⟨⟨_, (ansiFinished_exists stringSink stringSink_accepting StdString.new _).2⟩, ?_, ?_⟩
  · rintro ⟨b, c⟩
    cases b <;> cases c <;> decide
  · intro kind
    cases kind <;> decide +kernel

/-- The hypotheses of `C104_dropped` and what it says: the first writer is dropped in red, the plain text of the second is
red. -/
example :
    let red : Style := ⟨.Red, .Default, .Normal⟩
    let chs : List Chunk := [(str "a", Style.default), (str "b", red)]
    let chs' : List Chunk := [(str "c", Style.default)]
    (∃ out, AnsiWrote stringSink StdString.new chs out) ∧ (∃ out, AnsiFinished stringSink StdString.new chs' out) ∧
    (∀ kind, ∀ x ∈ flatten chs ++ flatten chs', x.1 ∉ acts kind) ∧
    flatten chs = [('a', Style.default)] ++ [('b', red)] ∧
    seenFrom .exclusive (Pen.ofStyle red) [] (flatten chs') = [.print 'c' { Pen.plain with fg := .indexed 1 }] := by
  refine ⟨⟨_, (ansiFinished_exists stringSink stringSink_accepting StdString.new _).1⟩,
    ⟨_, (ansiFinished_exists stringSink stringSink_accepting StdString.new _).2⟩, ?_, by decide, by decide⟩
  rintro ⟨b, c⟩
  cases b <;> cases c <;> decide

/-- The hypotheses of `C104_unstyled` are met by a text with a line break. -/
example : let chs : List Chunk := [(str "ab\n", Style.default)]
    (∃ out, AnsiWrote stringSink StdString.new chs out) ∧ (∀ kind, ∀ x ∈ flatten chs, x.1 ∉ acts kind) ∧
    ∀ x ∈ flatten chs, x.2 = Style.default := by
  refine ⟨⟨_, (ansiFinished_exists stringSink stringSink_accepting StdString.new _).1⟩, ?_, by decide⟩
  rintro ⟨b, c⟩
  cases b <;> cases c <;> decide

/-- On a terminal where bold and faint are independent, bold left by someone else stays under faint text. -/
example : seenFrom .independent { Pen.plain with bold := true } [] [('x', ⟨.Default, .Default, .Faint⟩)] =
      [.print 'x' { Pen.plain with bold := true, faint := true }] ∧
    seenFrom .exclusive { Pen.plain with bold := true } [] [('x', ⟨.Default, .Default, .Faint⟩)] =
      [.print 'x' { Pen.plain with faint := true }] := by
  decide

end Stylish.Props
