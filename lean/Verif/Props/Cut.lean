import Verif.Spec.Cut
import Verif.Props.Browser
import Verif.Props.Vt
import Verif.Props.Prefix
/-
C72: what is seen of an output that was cut off.
-/

namespace Stylish.Props

open Spec

/-! ## C72, ANSI -/

namespace CutOff

open Vt

theorem step_grows (kind : Kind) (s : Screen) (c : Char) : s.events <+: (s.step kind c).events := by
  have hr : ∀ e n, s.events <+: (s.report e n).events := fun e n => List.prefix_append _ _
  have hg : ∀ n, s.events <+: (s.goto n).events := fun n => List.prefix_rfl
  have hs : s.events <+: s.events := List.prefix_rfl
  unfold Screen.step Screen.c1Char Screen.csiChar Screen.csiFinal Screen.escFinal
  repeat' split
  all_goals first | exact hr _ _ | exact hg _ | exact hs

theorem feed_grows (kind : Kind) (t : Str) : ∀ s : Screen, s.events <+: (s.feed kind t).events := by
  induction t with
  | nil => exact fun s => List.prefix_rfl
  | cons c t ih => exact fun s => (step_grows kind s c).trans (ih _)

theorem feed_prefix (kind : Kind) (s : Screen) (p t : Str) (h : p <+: t) :
    (s.feed kind p).events <+: (s.feed kind t).events := by
  obtain ⟨q, rfl⟩ := h
  rw [Vt.feed_append]
  exact feed_grows kind q _

theorem reached_prefix {β : Type} (sw : Style → Style → List β) (enc : Char → List β) (args : Arguments) :
    reached sw enc args <+: renderWith sw enc Style.default (flatten (denote args).1) ++
      sw (lastStyle Style.default (flatten (denote args).1)) Style.default := by
  unfold reached
  split
  · exact List.prefix_rfl
  · rw [List.append_nil]; exact List.prefix_append _ _

end CutOff

section
variable {T : Type} [FmtWrite T]

open Vt

/-- C72, `Ansi`: whatever goes wrong in the stream or in the formatting itself, at whatever moment, a terminal has
shown of what reached it a part of what should be shown, from the start: no character in a wrong style, nothing of a
cut-off escape sequence. If the result is `Ok`, it has shown everything. -/
theorem C72_ansi (k : FmtSink T) (args : Arguments) (hp : Propagates args.f) (log : List Chunk)
    (out : Res FmtError Unit) (hargs : writes args.f Style.default FormatterArgs.default = (log, out))
    (t : T) (r : Res FmtError Unit) (a : Ansi T)
    (h : (Ansi.writeFmt args >>= fun _ => Ansi.finish) (Ansi.new t) = (r, a)) (kind : Kind)
    (hin : ∀ x ∈ flatten log, x.1 ∉ acts kind) (hb : kind.boldFaint = .exclusive ∨ ¬ Muddled (flatten log)) :
    ∃ p, k.delivered a.inner = k.delivered t ++ p ∧
      (Screen.fresh.feed kind p).events <+: (flatten log).map expected ∧
      (r = .ok () → (Screen.fresh.feed kind p).events = (flatten log).map expected) := by
  obtain ⟨p, h1, h2, h3, -⟩ := reached_of_renders (Ansi.renders k) (Ansi.finish_emits k) args hp (Ansi.new t) rfl r a h
  have hd : denote args = (log, out) := hargs
  have hA := (ansiFinished_exists stringSink stringSink_accepting StdString.new log).2
  have hx := (C71_exact _ _ _ _ (.inr hA) kind).2 ⟨hin, hb⟩
  refine ⟨p, h2, ?_, fun hr => ?_⟩
  · rw [← hx]
    have h4 := h1.trans (CutOff.reached_prefix ansiSwitch plainEnc args)
    rw [hd] at h4
    exact CutOff.feed_prefix kind _ _ _ h4
  · obtain ⟨rfl, h5⟩ := h3 hr
    rw [← hx, reached, if_pos h5, hd]
    rfl

/-- Also without any condition on the text: what a terminal does for the part that reached it is the start of what it
does for the whole output. -/
theorem C72_ansi_any (k : FmtSink T) (args : Arguments) (hp : Propagates args.f) (t : T) (r : Res FmtError Unit)
    (a : Ansi T) (h : (Ansi.writeFmt args >>= fun _ => Ansi.finish) (Ansi.new t) = (r, a))
    (r' : Res FmtError Unit) (b : Ansi StdString)
    (h' : (Ansi.writeFmt args >>= fun _ => Ansi.finish) (Ansi.new StdString.new) = (r', b)) (kind : Kind) :
    ∃ p, k.delivered a.inner = k.delivered t ++ p ∧
      (Screen.fresh.feed kind p).events <+: (Screen.fresh.feed kind b.inner.chars).events := by
  obtain ⟨p, h1, h2, -⟩ := C29_ansi_any k args hp t r a h r' b h'
  exact ⟨p, h2, CutOff.feed_prefix kind _ _ _ h1⟩

/-- C72, `io::Ansi`: the bytes that reached the stream are well-formed UTF-8 but for at most three at the end, and a
terminal shows of them a part of what should be shown, from the start. -/
theorem C72_io {U : Type} [StdIoWrite U] (k : IoSink U) (t : U) (calls : List Arguments) (logs : List (List Chunk))
    (hl : Logs calls logs) (fuel : Nat) (r : Res IoError Unit) (a : IoAnsi fuel U)
    (h : (writeFmts calls >>= fun _ => IoAnsi.finish) (IoAnsi.new t) = (r, a)) (kind : Kind)
    (hin : ∀ x ∈ flatten logs.flatten, x.1 ∉ acts kind)
    (hb : kind.boldFaint = .exclusive ∨ ¬ Muddled (flatten logs.flatten)) :
    ∃ bytes out cut, k.delivered a.inner = k.delivered t ++ (bytes ++ cut) ∧ decodeUtf8 bytes = some out ∧
      cut.length ≤ 3 ∧
      (Screen.fresh.feed kind out).events <+: (flatten logs.flatten).map expected ∧
      (r = .ok () → cut = [] ∧ (Screen.fresh.feed kind out).events = (flatten logs.flatten).map expected) := by
  obtain ⟨full, out, cut, h1, h2, -, h4, h5, h6⟩ := C65_cut k t calls logs hl fuel r a h
  have hx := (C71_exact _ _ _ _ (.inr h1) kind).2 ⟨hin, hb⟩
  refine ⟨utf8 out, out, cut, h4, decodeUtf8_utf8 out, h5, ?_, fun hr => ?_⟩
  · rw [← hx]; exact CutOff.feed_prefix kind _ _ _ h2
  · obtain ⟨rfl, rfl⟩ := h6 hr
    exact ⟨rfl, hx⟩

end

/-! ## C72, HTML -/

namespace CutOff

open Browser

variable {names : Names}

/-- A cut-off piece. -/
def Piece (cut : Str) : Prop :=
  cut = [] ∨ (∃ c rest, rest ≠ [] ∧ cut ++ rest = htmlEnc c) ∨ (∃ rest, rest ≠ [] ∧ cut ++ rest = str "</span>") ∨
    ∃ st rest, st ≠ Style.default ∧ rest ≠ [] ∧ cut ++ rest = str "<span style=" ++ valueOf st ++ str ">"

theorem prefix_cases {α : Type} (p a b : List α) (h : p <+: a ++ b) :
    (∃ rest, rest ≠ [] ∧ p ++ rest = a) ∨ ∃ q, p = a ++ q ∧ q <+: b := by
  by_cases hl : a.length ≤ p.length
  · obtain ⟨q, rfl⟩ := List.prefix_of_prefix_length_le (List.prefix_append _ _) h hl
    exact .inr ⟨q, rfl, (List.prefix_append_right_inj _).1 h⟩
  · obtain ⟨rest, rfl⟩ := List.prefix_of_prefix_length_le h (List.prefix_append _ _) (by omega)
    refine .inl ⟨rest, ?_, rfl⟩
    rintro rfl
    simp at hl

theorem switch_default (cur : Style) : htmlSwitch cur Style.default = htmlClose cur := by
  rw [htmlSwitch, if_pos rfl]

theorem switch_pieces (cur st : Style) (p b : Str) (h : p <+: htmlSwitch cur st ++ b) :
    (∃ st' cut, p = htmlSwitch cur st' ++ cut ∧ Piece cut) ∨ ∃ q, p = htmlSwitch cur st ++ q ∧ q <+: b := by
  rcases prefix_cases _ _ _ h with ⟨rest, hne, h⟩ | h
  · left
    rw [htmlSwitch_eq] at h
    split at h
    · simp at h; exact absurd h.2 hne
    · have hp : p <+: htmlClose cur ++ (if st = Style.default then [] else str "<span style=" ++ valueOf st ++ str ">") :=
        ⟨rest, h⟩
      rcases prefix_cases _ _ _ hp with ⟨rest', hne', h'⟩ | ⟨q, rfl, hq⟩
      · refine ⟨cur, p, by rw [htmlSwitch_self]; rfl, ?_⟩
        unfold htmlClose at h'
        split at h'
        · exact .inr (.inr (.inl ⟨rest', hne', h'⟩))
        · simp at h'; exact absurd h'.2 hne'
      · refine ⟨Style.default, q, by rw [switch_default], ?_⟩
        rw [List.append_assoc] at h
        have h := List.append_cancel_left h
        split at h
        · simp at h; exact absurd h.2 hne
        · rename_i hst
          exact .inr (.inr (.inr ⟨st, rest, hst, hne, h⟩))
  · exact .inr h

theorem render_pieces (t : Styled) : ∀ (cur : Style) (p : Str),
    p <+: renderWith htmlSwitch htmlEnc cur t ++ htmlSwitch (lastStyle cur t) Style.default →
    ∃ n st cut, p = renderWith htmlSwitch htmlEnc cur (t.take n) ++ (htmlSwitch (lastStyle cur (t.take n)) st ++ cut) ∧
      Piece cut := by
  induction t with
  | nil =>
    intro cur p h
    rw [renderWith, List.nil_append, lastStyle, ← List.append_nil (htmlSwitch _ _)] at h
    rcases switch_pieces _ _ _ _ h with ⟨st', cut, rfl, hc⟩ | ⟨q, rfl, hq⟩
    · exact ⟨0, st', cut, rfl, hc⟩
    · obtain rfl := List.prefix_nil.1 hq
      exact ⟨0, Style.default, [], rfl, .inl rfl⟩
  | cons x t ih =>
    intro cur p h
    obtain ⟨c, st⟩ := x
    rw [renderWith, lastStyle, List.append_assoc, List.append_assoc] at h
    rcases switch_pieces _ _ _ _ h with ⟨st', cut, rfl, hc⟩ | ⟨q, rfl, hq⟩
    · exact ⟨0, st', cut, rfl, hc⟩
    · rcases prefix_cases _ _ _ hq with ⟨rest, hne, h⟩ | ⟨q, rfl, hq⟩
      · exact ⟨0, st, q, rfl, .inr (.inl ⟨c, rest, hne, h⟩)⟩
      · obtain ⟨n, st', cut, rfl, hc⟩ := ih st q ((List.prefix_append_right_inj _).1 hq)
        refine ⟨n + 1, st', cut, ?_, hc⟩
        rw [List.take_succ_cons, renderWith, lastStyle]
        simp

/-- Nothing but text. -/
def Quiet (ts : List Token) : Prop := ∀ tok ∈ ts, tok = .parseError ∨ ∃ c, tok = .char c

/-- The characters shown. -/
def shown (ts : List Token) : Str :=
  ts.filterMap fun tok => match tok with
    | .char c => if c = '\x00' then none else some c
    | _ => none

theorem build_quiet (tail : List Token) (hq : Quiet tail) : ∀ stack : List Style,
    build stack tail = some ((shown tail).map fun c => (c, stack.headD ⟨.Default, .Default, .Normal⟩)) := by
  induction tail with
  | nil => intro; rfl
  | cons tok tail ih =>
    intro stack
    have ih := ih (fun x hx => hq x (by simp [hx])) stack
    rcases hq tok (by simp) with rfl | ⟨c, rfl⟩
    · rw [build, ih]; rfl
    · rw [build, ih]
      by_cases hc : c = '\x00' <;> simp [shown, hc]

theorem build_append_quiet (ts tail : List Token) (hq : Quiet tail) : ∀ (stack : List Style) (r : Styled),
    build stack ts = some r → ∃ st, build stack (ts ++ tail) = some (r ++ (shown tail).map fun c => (c, st)) := by
  induction ts with
  | nil =>
    intro stack r h
    obtain rfl := Option.some.inj h
    exact ⟨_, build_quiet tail hq stack⟩
  | cons tok ts ih =>
    intro stack r h
    cases tok with
    | char c =>
      rw [build] at h
      obtain ⟨r', h1, rfl⟩ := Option.map_eq_some_iff.1 h
      obtain ⟨st, h2⟩ := ih stack r' h1
      refine ⟨st, ?_⟩
      rw [List.cons_append, build, h2]
      by_cases hc : c = '\x00' <;> simp [hc]
    | startTag name attrs sc =>
      rw [build] at h
      rw [List.cons_append, build]
      split at h
      · rename_i hn
        obtain ⟨st', h1, h2⟩ := Option.bind_eq_some_iff.1 h
        rw [if_pos hn, h1]
        exact ih _ r h2
      · cases h
    | endTag name =>
      rw [build] at h
      rw [List.cons_append, build]
      split at h
      · rename_i hn
        rw [if_pos hn]
        exact ih _ r h
      · cases h
    | parseError => exact ih stack r h
    | outside => cases h

theorem quiet_append {a b : List Token} (ha : Quiet a) (hb : Quiet b) : Quiet (a ++ b) := by
  intro x hx
  rcases List.mem_append.1 hx with h | h
  · exact ha x h
  · exact hb x h

theorem tokens_quiet (s : Str) (h : '<' ∉ s) : ∀ k, Quiet (Browser.tokens names k .data s) := by
  induction s with
  | nil => intro k x hx; simp [Browser.tokens, atEnd] at hx
  | cons c s ih =>
    have ih := ih (by simp at h; exact h.2)
    have hc : c ≠ '<' := by rintro rfl; simp at h
    intro k
    cases k with
    | succ k => rw [Browser.tokens]; exact ih k
    | zero =>
      rw [Browser.tokens]
      simp only [step]
      have hd : (inData names c s).2.2 = .data ∧ Quiet (inData names c s).1 := by
        unfold inData
        rw [if_neg hc]
        split
        · split
          · refine ⟨rfl, quiet_append ?_ ?_⟩
            · split
              · intro x hx; cases hx
              · intro x hx; exact .inl (List.mem_singleton.1 hx)
            · intro x hx
              obtain ⟨d, -, rfl⟩ := List.mem_map.1 hx
              exact .inr ⟨d, rfl⟩
          · refine ⟨rfl, quiet_append ?_ ?_⟩
            · split
              · intro x hx; exact .inl (List.mem_singleton.1 hx)
              · intro x hx; cases hx
            · intro x hx
              exact .inr ⟨_, List.mem_singleton.1 hx⟩
        · split
          · refine ⟨rfl, ?_⟩
            intro x hx
            simp at hx
            rcases hx with rfl | rfl
            · exact .inl rfl
            · exact .inr ⟨_, rfl⟩
          · refine ⟨rfl, ?_⟩
            intro x hx
            exact .inr ⟨_, List.mem_singleton.1 hx⟩
      rw [hd.1]
      exact quiet_append hd.2 (ih _)

theorem eq_take {a b l : Str} (h : a ++ b = l) : a = l.take a.length := by
  rw [← h, List.take_left]

theorem entity_piece (c : Char) (cut rest : Str) (hne : rest ≠ []) (h : cut ++ rest = htmlEnc c) :
    cut = [] ∨ (cut ∈ halfMarkup ∧ '<' ∉ cut) := by
  have lit : ∀ l : Str, (∀ n < l.length, l.take n = [] ∨ (l.take n ∈ halfMarkup ∧ '<' ∉ l.take n)) →
      cut ++ rest = l → cut = [] ∨ (cut ∈ halfMarkup ∧ '<' ∉ cut) := by
    intro l hl e
    have e2 := eq_take e
    have : cut.length < l.length := by
      rw [← e, List.length_append]
      have := List.length_pos_iff.2 hne
      omega
    rw [e2]
    exact hl _ this
  unfold htmlEnc htmlEntity at h
  by_cases h1 : c = '<'; · subst h1; exact lit _ (by decide) h
  by_cases h2 : c = '>'; · subst h2; exact lit _ (by decide) h
  by_cases h3 : c = '&'; · subst h3; exact lit _ (by decide) h
  by_cases h4 : c = '"'; · subst h4; exact lit _ (by decide) h
  by_cases h5 : c = '\''; · subst h5; exact lit _ (by decide) h
  simp [h1, h2, h3, h4, h5] at h
  refine lit [c] ?_ h
  intro n hn
  left
  have : n = 0 := by simp at hn; exact hn
  subst this; rfl

theorem tokens_value_cut (t : Tag) (n v : Str) (hv : v.all (fun c => !HtmlReader.illegalInValue.contains c) = true)
    (acc : Str) : Browser.tokens names 0 (.attrValue none t n acc) v = [.parseError] := by
  induction v generalizing acc with
  | nil => rfl
  | cons c v ih =>
    simp only [List.all_cons, Bool.and_eq_true] at hv
    obtain ⟨hc, hv⟩ := hv
    have hc : ∀ d ∈ HtmlReader.illegalInValue, c ≠ d := by
      rintro d hd rfl
      simp [hd] at hc
    have hs : isSpace c = false := by
      simp [isSpace, hc '\t' (by decide), hc '\n' (by decide), hc '\x0c' (by decide), hc ' ' (by decide)]
    rw [Browser.tokens]
    simp only [step, inAttrValue, hs]
    simp only [hc '>' (by decide), hc '&' (by decide), hc '\x00' (by decide), hc '"' (by decide), hc '\'' (by decide),
      hc '<' (by decide), hc '=' (by decide), hc '`' (by decide)]
    have := ih hv (acc ++ [c])
    simpa using this

theorem tokens_before_cut (t : Tag) (n v : Str) (hv : v.all (fun c => !HtmlReader.illegalInValue.contains c) = true) :
    Browser.tokens names 0 (.beforeAttrValue t n) v = [.parseError] := by
  cases v with
  | nil => rfl
  | cons c v =>
    have h2 := tokens_value_cut (names := names) t n (c :: v) hv []
    have hc : ∀ d ∈ HtmlReader.illegalInValue, c ≠ d := by
      rintro d hd rfl
      simp [hd] at hv
    have hs : isSpace c = false := by
      simp [isSpace, hc '\t' (by decide), hc '\n' (by decide), hc '\x0c' (by decide), hc ' ' (by decide)]
    have e3 : step names (.beforeAttrValue t n) c v = step names (.attrValue none t n []) c v := by
      simp only [step, hs, hc '"' (by decide), hc '\'' (by decide), hc '>' (by decide)]
      rfl
    rw [Browser.tokens, e3]
    rw [Browser.tokens] at h2
    exact h2

/-- What the tokens of a cut-off piece are. -/
theorem piece_tokens (cut : Str) (h : Piece cut) :
    Quiet (Browser.tokens names 0 .data cut) ∧
      (shown (Browser.tokens names 0 .data cut) = [] ∨ cut ∈ halfMarkup) := by
  have one : Quiet [.parseError] ∧ shown [.parseError] = [] := ⟨fun x hx => .inl (List.mem_singleton.1 hx), rfl⟩
  have single : Browser.tokens names 0 .data cut = [.parseError] →
      Quiet (Browser.tokens names 0 .data cut) ∧
      (shown (Browser.tokens names 0 .data cut) = [] ∨ cut ∈ halfMarkup) := by
    intro e; rw [e]; exact ⟨one.1, .inl one.2⟩
  rcases h with rfl | ⟨c, rest, hne, h⟩ | ⟨rest, hne, h⟩ | ⟨st, rest, hst, hne, h⟩
  · exact ⟨tokens_quiet [] (by simp) 0, .inl rfl⟩
  · rcases entity_piece c cut rest hne h with rfl | ⟨h1, h2⟩
    · exact ⟨tokens_quiet [] (by simp) 0, .inl rfl⟩
    · exact ⟨tokens_quiet cut h2 0, .inr h1⟩
  · have hl : cut.length < 7 := by
      have e := congrArg List.length h
      rw [List.length_append] at e
      have : (str "</span>").length = 7 := by decide
      have := List.length_pos_iff.2 hne
      omega
    have e := eq_take h
    generalize cut.length = n at e hl
    subst e
    clear h
    rcases n with _ | _ | _ | n
    · exact ⟨tokens_quiet [] (by simp) 0, .inl rfl⟩
    · refine ⟨?_, .inr (by decide)⟩
      intro x hx
      have hx : x ∈ [Token.parseError, .char '<'] := hx
      simp at hx
      rcases hx with rfl | rfl
      · exact .inl rfl
      · exact .inr ⟨_, rfl⟩
    · refine ⟨?_, .inr (by decide)⟩
      intro x hx
      have hx : x ∈ [Token.parseError, .char '<', .char '/'] := hx
      simp at hx
      rcases hx with rfl | rfl | rfl
      · exact .inl rfl
      · exact .inr ⟨_, rfl⟩
      · exact .inr ⟨_, rfl⟩
    · apply single
      rcases n with _ | _ | _ | _ | n
      · rfl
      · rfl
      · rfl
      · rfl
      · omega
  · have hp : cut <+: str "<span style=" ++ (valueOf st ++ str ">") := ⟨rest, by rw [h, List.append_assoc]⟩
    rcases prefix_cases _ _ _ hp with ⟨rest', hne', h'⟩ | ⟨q, rfl, hq⟩
    · have hl : cut.length < 12 := by
        have e := congrArg List.length h'
        rw [List.length_append] at e
        have : (str "<span style=").length = 12 := by decide
        have := List.length_pos_iff.2 hne'
        omega
      have e := eq_take h'
      generalize cut.length = n at e hl
      subst e
      clear h h' hp
      rcases n with _ | _ | n
      · exact ⟨tokens_quiet [] (by simp) 0, .inl rfl⟩
      · refine ⟨?_, .inr (by decide)⟩
        intro x hx
        have hx : x ∈ [Token.parseError, .char '<'] := hx
        simp at hx
        rcases hx with rfl | rfl
        · exact .inl rfl
        · exact .inr ⟨_, rfl⟩
      · apply single
        rcases n with _ | _ | _ | _ | _ | _ | _ | _ | _ | _ | n
        all_goals first | rfl | omega
    · apply single
      have e : Browser.tokens names 0 .data (str "<span style=" ++ q) =
          Browser.tokens names 0 (.beforeAttrValue ⟨false, str "span", []⟩ (str "style")) q := rfl
      rw [e]
      apply tokens_before_cut
      have hv := legalValue_valueOf st hst
      simp only [HtmlReader.legalValue, Bool.and_eq_true] at hv
      rw [List.append_assoc, List.append_assoc] at h
      have h := List.append_cancel_left h
      rcases prefix_cases _ _ _ hq with ⟨rest', -, h'⟩ | ⟨q', rfl, hq'⟩
      · have := hv.2
        rw [← h', List.all_append, Bool.and_eq_true] at this
        exact this.1
      · obtain ⟨z, hz⟩ := hq'
        have : q' = [] := by
          rw [List.append_assoc] at h
          have h := List.append_cancel_left h
          cases q' with
          | nil => rfl
          | cons x q' =>
            have e1 := congrArg List.length h
            rw [List.length_append, List.length_cons] at e1
            have e2 : (str ">").length = 1 := by decide
            have := List.length_pos_iff.2 hne
            omega
        subst this
        rw [List.append_nil]
        exact hv.2

/-- Whatever is open, the markup between two styles shows nothing. -/
theorem build_render_switch (u : Styled) (st : Style) :
    build [] ((renderTokens Style.default u ++ switchTokens (lastStyle Style.default u) st).flatMap browserTokens) =
      some (noNul u) := by
  have e := page_render Style.default u (switchTokens (lastStyle Style.default u) st ++ switchTokens st Style.default)
  have e2 := page_switch st Style.default []
  have e3 : stackOf Style.default = [] := rfl
  rw [List.append_nil] at e2
  rw [page_switch, e2, e3] at e
  have e4 : HtmlReader.page [] [] = some [] := rfl
  rw [e4, Option.map_some, List.append_nil, ← List.append_assoc] at e
  have h := build_of_strict _ _ _ e
  rw [List.flatMap_append (xs := _ ++ _)] at h
  rw [← h]
  by_cases hst : st = Style.default
  · simp [switchTokens, hst]
  · have : (switchTokens st Style.default).flatMap browserTokens = [.endTag (str "span")] := by
      simp [switchTokens, closeTokens, openTokens, hst, browserTokens]
    rw [this, build_endTag]

theorem piece_clean (cut : Str) (h : Piece cut) : '\r' ∉ cut ∧ cut.head? ≠ some '\n' := by
  have key : ∀ l rest : Str, cut ++ rest = l → (∀ c ∈ l, c ≠ '\r' ∧ c ≠ '\n') → '\r' ∉ cut ∧ cut.head? ≠ some '\n' := by
    rintro l rest rfl hl
    refine ⟨fun hm => (hl _ (List.mem_append_left _ hm)).1 rfl, fun hh => ?_⟩
    cases cut with
    | nil => simp at hh
    | cons c cut =>
      simp at hh
      exact (hl c (by simp)).2 hh
  rcases h with rfl | ⟨c, rest, hne, h⟩ | ⟨rest, hne, h⟩ | ⟨st, rest, hst, hne, h⟩
  · simp
  · rcases entity_piece c cut rest hne h with rfl | ⟨h1, -⟩
    · simp
    · refine key cut [] (List.append_nil _) ?_
      have : ∀ m ∈ halfMarkup, ∀ c ∈ m, c ≠ '\r' ∧ c ≠ '\n' := by decide
      exact this cut h1
  · exact key _ _ h (by decide)
  · have e := htmlSwitch_eq Style.default st
    rw [if_neg (Ne.symm hst), if_neg hst] at e
    have e2 : htmlClose Style.default = [] := rfl
    rw [e2, List.nil_append] at e
    rw [← e] at h
    refine key _ _ h fun c hc => ?_
    have := htmlSwitch_printable _ _ c hc
    constructor
    · rintro rfl; exact absurd this (by decide)
    · rintro rfl; exact absurd this (by decide)

theorem shows_whole (hn : names.Standard) (u : Styled) (st : Style) (cut : Str) (hc : Piece cut) :
    ∃ st', shows names (renderWith htmlSwitch htmlEnc Style.default u ++
      (htmlSwitch (lastStyle Style.default u) st ++ cut)) =
      some (visible u ++ (shown (Browser.tokens names 0 .data cut)).map fun c => (c, st')) := by
  obtain ⟨hcr, hnl⟩ := piece_clean cut hc
  obtain ⟨hq, hleft⟩ := piece_tokens (names := names) cut hc
  have ncut : newlines cut = cut := by
    have := newlines_append cut [] hcr
    rwa [show newlines [] = [] from rfl, List.append_nil] at this
  have hsw : newlines (renderWith htmlSwitch htmlEnc Style.default u ++
      (htmlSwitch (lastStyle Style.default u) st ++ cut)) =
      renderWith htmlSwitch htmlEnc Style.default (lineBreaks u) ++
        (htmlSwitch (lastStyle Style.default (lineBreaks u)) st ++ cut) := by
    rw [newlines_seam _ _ (Nat.le_refl _), newlines_renderWith, newlines_append _ _ (cr_switch _ _), ncut,
      lastStyle_lineBreaks _ _ (Nat.le_refl _)]
    by_cases e : htmlSwitch (lastStyle Style.default u) st = []
    · rw [e]; exact .inr hnl
    · exact .inr (head_switch _ _ _ e)
  have hl := lex_append_some _ _ _ _ _ (lex_render Style.default (lineBreaks u))
    (lex_switch (lastStyle Style.default (lineBreaks u)) st)
  have ht := tokens_of_strict hn cut _ _ (Nat.le_refl _) _ hl
  obtain ⟨st', hb⟩ := build_append_quiet _ _ hq [] _ (build_render_switch (lineBreaks u) st)
  refine ⟨st', ?_⟩
  unfold shows tokenize
  rw [hsw, ← List.append_assoc, ht, hb]
  rfl

/-- What is shown of a part of a rendering. -/
theorem shows_part (hn : names.Standard) (t : Styled) (p : Str) (h : p <+: htmlRender t) :
    ∃ n left st, shows names p = some (visible (t.take n) ++ left.map fun c => (c, st)) ∧ Leftover names left := by
  obtain ⟨n, st, cut, rfl, hc⟩ := render_pieces t Style.default p h
  obtain ⟨hcr, hnl⟩ := piece_clean cut hc
  obtain ⟨hq, hleft⟩ := piece_tokens (names := names) cut hc
  have ncut : newlines cut = cut := by
    have := newlines_append cut [] hcr
    rwa [show newlines [] = [] from rfl, List.append_nil] at this
  obtain ⟨st', hb⟩ := shows_whole hn (t.take n) st cut hc
  refine ⟨n, shown (Browser.tokens names 0 .data cut), st', hb, ?_⟩
  rcases hleft with h0 | hm
  · exact .inl h0
  · refine .inr ⟨cut, hm, ?_⟩
    unfold shownText shows tokenize
    rw [ncut, build_quiet _ hq]
    simp [Function.comp_def]

theorem lineBreaks_take (N : Nat) : ∀ (t : Styled), t.length ≤ N → ∀ n, lineBreaks (t.take n) <+: lineBreaks t := by
  induction N with
  | zero =>
    intro t ht n
    obtain rfl := List.eq_nil_of_length_eq_zero (Nat.le_zero.1 ht)
    simp
  | succ N ih =>
    intro t ht n
    cases t with
    | nil => simp
    | cons x u =>
      have hu : u.length ≤ N := Nat.le_of_succ_le_succ ht
      obtain ⟨c, st⟩ := x
      cases n with
      | zero => exact List.nil_prefix
      | succ n =>
        rw [List.take_succ_cons]
        by_cases hc : c = '\r'
        · subst hc
          cases u with
          | nil => simp
          | cons y v =>
            obtain ⟨d, st'⟩ := y
            have e1 : lineBreaks [('\r', st)] = [('\n', st)] := rfl
            by_cases hd : d = '\n' ∧ st = st'
            · rw [lineBreaks, if_pos rfl, if_pos hd]
              cases n with
              | zero => exact ⟨_, rfl⟩
              | succ n =>
                rw [List.take_succ_cons, lineBreaks, if_pos rfl, if_pos hd]
                exact List.cons_prefix_cons.2 ⟨rfl, ih v (by simp at hu; omega) n⟩
            · rw [lineBreaks, if_pos rfl, if_neg hd]
              cases n with
              | zero => exact ⟨_, rfl⟩
              | succ n =>
                have := ih ((d, st') :: v) hu (n + 1)
                rw [List.take_succ_cons] at this ⊢
                rw [lineBreaks, if_pos rfl, if_neg hd]
                exact List.cons_prefix_cons.2 ⟨rfl, this⟩
        · rw [lineBreaks_other c st _ hc, lineBreaks_other c st _ hc]
          exact List.cons_prefix_cons.2 ⟨rfl, ih u hu n⟩

theorem visible_take (t : Styled) (n : Nat) : visible (t.take n) <+: visible t := by
  obtain ⟨r, hr⟩ := lineBreaks_take _ t (Nat.le_refl _) n
  unfold visible noNul
  rw [← hr, List.filter_append]
  exact List.prefix_append _ _

end CutOff

section
variable {T : Type} [FmtWrite T]

open Browser

/-- C72, `Html`: whatever goes wrong in the stream or in the formatting itself, at whatever moment, a browser shows of
what reached the stream the first characters of the text, each in its style, and after them nothing more than what may
be seen of one tag or character reference that was cut off; of a tag, at most `<` or `</`. If the result is `Ok`, it
shows everything. -/
theorem C72_html (names : Names) (hn : names.Standard) (k : FmtSink T) (args : Arguments) (hp : Propagates args.f)
    (log : List Chunk) (out : Res FmtError Unit)
    (hargs : writes args.f Style.default FormatterArgs.default = (log, out))
    (t : T) (r : Res FmtError Unit) (a : Html T)
    (h : (Html.writeFmt args >>= fun _ => Html.finish) (Html.new t) = (r, a)) :
    ∃ p, k.delivered a.inner = k.delivered t ++ p ∧
      (∃ n left st, shows names p = some (visible ((flatten log).take n) ++ left.map fun c => (c, st)) ∧
        visible ((flatten log).take n) <+: visible (flatten log) ∧ Leftover names left) ∧
      (r = .ok () → shows names p = some (visible (flatten log))) := by
  obtain ⟨p, h1, h2, h3, -⟩ := reached_of_renders (Html.renders k) (Html.finish_emits k) args hp (Html.new t) rfl r a h
  have hd : denote args = (log, out) := hargs
  refine ⟨p, h2, ?_, fun hr => ?_⟩
  · have h4 := h1.trans (CutOff.reached_prefix htmlSwitch htmlEnc args)
    rw [hd] at h4
    obtain ⟨n, left, st, h5, h6⟩ := CutOff.shows_part hn (flatten log) p h4
    exact ⟨n, left, st, h5, CutOff.visible_take _ n, h6⟩
  · obtain ⟨rfl, h5⟩ := h3 hr
    rw [reached, if_pos h5, hd]
    exact shows_htmlRender hn _

end

/-! ### Samples -/

/-- A table of names that meets the condition. -/
def fourNames : Browser.Names := fun s =>
  if s = str "lt;" then some ['<'] else if s = str "gt;" then some ['>'] else if s = str "amp;" then some ['&']
  else if s = str "quot;" then some ['"'] else if s = str "lt" then some ['<'] else none

theorem fourNames_standard : fourNames.Standard := by
  refine ⟨by decide, by decide, by decide, by decide, ?_⟩
  intro a b h
  have key : ∀ l : Str, a ++ ';' :: b = l → (∀ n < l.length, l.drop n = [] ∨ l[n]? ≠ some ';' ∨ l.drop (n + 1) = []) → b = [] := by
    rintro l rfl hl
    rcases hl a.length (by simp) with h1 | h1 | h1
    · simp at h1
    · simp at h1
    · have e : (a ++ ';' :: b).drop (a.length + 1) = b := by
        rw [List.append_cons, List.drop_left' (by simp)]
      rwa [e] at h1
  unfold fourNames at h
  split at h
  · rename_i e; exact key _ e (by decide)
  split at h
  · rename_i e; exact key _ e (by decide)
  split at h
  · rename_i e; exact key _ e (by decide)
  split at h
  · rename_i e; exact key _ e (by decide)
  split at h
  · rename_i e; exact key _ e (by decide)
  · exact absurd rfl h

/-- A formatting implementation that writes `a<` in red and `c`. -/
def cutDisp : Disp := .within (.of (Foreground.mk .Red)) (.writeStr ['a', '<'] fun r => .done r) fun r =>
  .try_ (.writeStr ['c'] fun r => .done r) r

example : Propagates cutDisp ∧ writes cutDisp Style.default FormatterArgs.default =
    ([(['a', '<'], ⟨.Red, .Default, .Normal⟩), (['c'], Style.default)], .ok ()) := by
  refine ⟨⟨⟨rfl, trivial⟩, rfl, rfl, trivial⟩, by decide⟩

/-- On a terminal: nothing, or the first characters. -/
example :
    let run := fun n => (Ansi.writeFmt ⟨cutDisp⟩ >>= fun _ => Ansi.finish) (Ansi.new (⟨[], n⟩ : LimitedSink))
    (run 4).1 = .err () ∧ (run 4).2.inner.chars = str "\x1b[31" ∧
    (Vt.Screen.fresh.feed ⟨.exclusive, true⟩ (run 4).2.inner.chars).events = [] ∧
    (run 8).2.inner.chars = str "\x1b[31ma<\x1b" ∧
    (Vt.Screen.fresh.feed ⟨.exclusive, true⟩ (run 8).2.inner.chars).events =
      [.print 'a' { Vt.Pen.plain with fg := .indexed 1 }, .print '<' { Vt.Pen.plain with fg := .indexed 1 }] := by
  decide +kernel

/-- In a browser: nothing of a cut-off opening tag; a cut-off character reference or closing tag may be seen. -/
example :
    let run := fun n => (Html.writeFmt ⟨cutDisp⟩ >>= fun _ => Html.finish) (Html.new (⟨[], n⟩ : LimitedSink))
    let red : Style := ⟨.Red, .Default, .Normal⟩
    let seen := fun n => Browser.shows fourNames (run n).2.inner.chars
    (run 9).1 = .err () ∧ (run 9).2.inner.chars = str "<span sty" ∧ seen 9 = some [] ∧
    (run 26).2.inner.chars = str "<span style=color:red>a&lt" ∧ seen 26 = some [('a', red), ('<', red)] ∧
    (run 25).2.inner.chars = str "<span style=color:red>a&l" ∧ seen 25 = some [('a', red), ('&', red), ('l', red)] ∧
    (run 29).2.inner.chars = str "<span style=color:red>a&lt;</" ∧
    seen 29 = some [('a', red), ('<', red), ('<', red), ('/', red)] ∧
    (run 32).2.inner.chars = str "<span style=color:red>a&lt;</spa" ∧ seen 32 = some [('a', red), ('<', red)] := by
  decide +kernel

end Stylish.Props
