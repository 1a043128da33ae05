import Verif.Spec.Xml
import Verif.Props.Browser
/-
C107: the HTML output as XML.
-/

namespace Stylish.Props

open Spec Browser

variable {T : Type} [FmtWrite T] {names : Names}

/-! ## C107 -/

namespace Xml

open Spec.Xml

theorem tokens_cons (s : Spec.Xml.State) (c : Char) (cs : Str) :
    Spec.Xml.tokens s (c :: cs) = (step s c).bind fun (out, s') => (Spec.Xml.tokens s' cs).map (out ++ ·) := by
  cases s <;> rfl

/-- A character of text. -/
theorem tokens_enc (c : Char) (n : Nat) (rest : Str) : ∃ m, Spec.Xml.tokens (.data n) (htmlEnc c ++ rest) =
    if isChar c then (Spec.Xml.tokens (.data m) rest).map (.char c :: ·) else none := by
  have entity : ∀ (d : Char) (e : Str), htmlEnc d = '&' :: (e ++ str ";") → ';' ∉ e → reference e = some d →
      isChar d = true → ∃ m, Spec.Xml.tokens (.data n) (htmlEnc d ++ rest) =
    if isChar d then (Spec.Xml.tokens (.data m) rest).map (.char d :: ·) else none := by
    intro d e he hn hr hd
    refine ⟨0, ?_⟩
    rw [he, if_pos hd, List.cons_append, tokens_cons]
    have : ∀ (e acc : Str), ';' ∉ e → Spec.Xml.tokens (.ref acc) (e ++ str ";" ++ rest) =
        Spec.Xml.tokens (.ref (acc ++ e)) (str ";" ++ rest) := by
      intro e
      induction e with
      | nil => intro acc _; simp
      | cons x e ih =>
        intro acc hx
        have h1 : x ≠ ';' := by rintro rfl; simp at hx
        rw [List.cons_append, List.cons_append, tokens_cons]
        simp only [Spec.Xml.step, if_neg h1, Option.bind_some]
        rw [ih _ (by simp at hx; exact hx.2)]
        simp [Function.comp_def]
    have s1 : step (.data n) '&' = some ([], .ref []) := rfl
    rw [s1]
    simp only [Option.bind_some]
    rw [this e [] hn, List.nil_append]
    show Option.map _ (Spec.Xml.tokens (.ref e) (';' :: rest)) = _
    rw [tokens_cons]
    simp only [Spec.Xml.step, if_true, hr, Option.map_some, Option.bind_some]
    simp [Function.comp_def]
  by_cases h1 : c = '<'; · subst h1; exact entity '<' (str "lt") (by decide) (by decide) (by decide) (by decide)
  by_cases h2 : c = '>'; · subst h2; exact entity '>' (str "gt") (by decide) (by decide) (by decide) (by decide)
  by_cases h3 : c = '&'; · subst h3; exact entity '&' (str "amp") (by decide) (by decide) (by decide) (by decide)
  by_cases h4 : c = '"'; · subst h4; exact entity '"' (str "quot") (by decide) (by decide) (by decide) (by decide)
  by_cases h5 : c = '\''; · subst h5; exact entity '\'' (str "#x27") (by decide) (by decide) (by decide) (by decide)
  refine ⟨if c = ']' then n + 1 else 0, ?_⟩
  have e : htmlEnc c = [c] := by simp [htmlEnc, htmlEntity, h1, h2, h3, h4, h5]
  rw [e, List.singleton_append, tokens_cons]
  have hs : step (.data n) c = if isChar c then some ([.char c], .data (if c = ']' then n + 1 else 0)) else none := by
    have h2' : ¬(c = '>' ∧ 2 ≤ n) := fun h => h2 h.1
    rw [Spec.Xml.step, if_neg h1, if_neg h3, if_neg h2']
  rw [hs]
  split
  · rfl
  · rfl

/-- Through characters that give no token. -/
def goes : Spec.Xml.State → Str → Option Spec.Xml.State
  | s, [] => some s
  | s, c :: cs => (match Spec.Xml.step s c with | some ([], s') => goes s' cs | _ => none)

theorem tokens_goes (a : Str) : ∀ (s s' : Spec.Xml.State), goes s a = some s' → ∀ rest,
    Spec.Xml.tokens s (a ++ rest) = Spec.Xml.tokens s' rest := by
  induction a with
  | nil => intro s s' h rest; simp only [goes, Option.some.injEq] at h; rw [h]; rfl
  | cons c a ih =>
    intro s s' h rest
    rw [goes] at h
    split at h
    · rename_i s1 e
      rw [List.cons_append, tokens_cons, e]
      simp only [Option.bind_some]
      rw [ih s1 s' h rest]
      simp
    · simp at h

theorem value_head (st : Style) (h : st ≠ Style.default) : ∃ c v, valueOf st = c :: v ∧ (c = 'c' ∨ c = 'b' ∨ c = 'f') := by
  have hf : ∀ c, ∃ v, str (HtmlUtil.foreground c) = 'c' :: v := by intro c; cases c <;> exact ⟨_, rfl⟩
  have hb : ∀ c, ∃ v, str (HtmlUtil.background c) = 'b' :: v := by intro c; cases c <;> exact ⟨_, rfl⟩
  have hi : ∀ c, ∃ v, str (HtmlUtil.intensity c) = 'f' :: v := by intro c; cases c <;> exact ⟨_, rfl⟩
  have hne := segments_ne_nil st h
  unfold valueOf
  generalize st.diffFrom Style.default = d at hne ⊢
  obtain ⟨f, b, i⟩ := d
  cases f with
  | some f =>
    obtain ⟨v, hv⟩ := hf f
    exact ⟨'c', _, by simp [Html.segments, htmlValue, hv]; rfl, .inl rfl⟩
  | none =>
    cases b with
    | some b =>
      obtain ⟨v, hv⟩ := hb b
      exact ⟨'b', _, by simp [Html.segments, htmlValue, hv]; rfl, .inr (.inl rfl)⟩
    | none =>
      cases i with
      | some i =>
        obtain ⟨v, hv⟩ := hi i
        exact ⟨'f', _, by simp [Html.segments, htmlValue, hv]; rfl, .inr (.inr rfl)⟩
      | none => exact absurd rfl hne

/-- A span is not well-formed: the value of its attribute is not in quotes. -/
theorem tokens_span (n : Nat) (st : Style) (h : st ≠ Style.default) (rest : Str) :
    Spec.Xml.tokens (.data n) (str "<span style=" ++ (valueOf st ++ rest)) = none := by
  obtain ⟨c, v, hv, hc⟩ := value_head st h
  rw [hv]
  have e : str "<span style=" ++ (c :: v ++ rest) = '<' :: (str "span style=" ++ (c :: (v ++ rest))) := by simp [str]
  have e1 : Spec.Xml.step (.data n) '<' = some ([], .lt) := rfl
  rw [e, tokens_cons, e1]
  show (Spec.Xml.tokens .lt (str "span style=" ++ (c :: (v ++ rest)))).map _ = none
  rw [tokens_goes (str "span style=") .lt (.afterEq (str "span") [] (str "style")) (by decide +kernel), tokens_cons]
  rcases hc with rfl | rfl | rfl <;> rfl

/-- No character in a style, and none that XML does not have. -/
def fine (t : Styled) : Bool := t.all fun x => x.2 = Style.default && isChar x.1

theorem tokens_render (t : Styled) (e : Str) (he : fine t = true → e = []) : ∀ n,
    Spec.Xml.tokens (.data n) (renderWith htmlSwitch htmlEnc Style.default t ++ e) =
      if fine t then some (t.map fun x => .char x.1) else none := by
  induction t with
  | nil => intro n; rw [he rfl]; rfl
  | cons x t ih =>
    obtain ⟨c, st⟩ := x
    intro n
    rw [renderWith]
    by_cases hst : st = Style.default
    · subst hst
      rw [htmlSwitch_self, List.nil_append, List.append_assoc]
      obtain ⟨m, hm⟩ := tokens_enc c n (renderWith htmlSwitch htmlEnc Style.default t ++ e)
      rw [hm]
      by_cases hc : isChar c = true
      · have hfine : fine ((c, Style.default) :: t) = fine t := by simp [fine, hc]
        rw [if_pos hc, ih (by rw [← hfine]; exact he) m, hfine]
        split <;> rfl
      · have hfine : fine ((c, Style.default) :: t) = false := by simp [fine, hc]
        rw [if_neg hc, hfine]
        rfl
    · have hfine : fine ((c, st) :: t) = false := by simp [fine, hst]
      rw [hfine, htmlSwitch_eq, if_neg (Ne.symm hst), if_neg hst]
      have hcl : htmlClose Style.default = [] := by decide
      rw [hcl, List.nil_append]
      simp only [List.append_assoc]
      rw [tokens_span n st hst]
      rfl

theorem nested_chars (t : Str) : nested [] (t.map .char) = some t := by
  induction t with
  | nil => rfl
  | cons c t ih => rw [List.map_cons, nested, ih]; rfl

theorem read_render (t : Styled) (out : Str) (h : newlines out = htmlRender t ∨
    newlines out = renderWith htmlSwitch htmlEnc Style.default t) :
    Spec.Xml.read out = if fine t then some (text t) else none := by
  have key : ∀ e, (fine t = true → e = []) → newlines out = renderWith htmlSwitch htmlEnc Style.default t ++ e →
      Spec.Xml.read out = if fine t then some (text t) else none := by
    intro e he hn
    rw [Spec.Xml.read, hn, tokens_render t e he]
    split
    · show nested [] _ = _
      have := nested_chars (text t)
      rw [text, List.map_map] at this
      exact this
    · rfl
  rcases h with h | h
  · refine key (htmlSwitch (lastStyle Style.default t) Style.default) (fun hf => ?_) h
    have : ∀ t : Styled, fine t = true → lastStyle Style.default t = Style.default := by
      intro t
      induction t with
      | nil => intro _; rfl
      | cons x t ih =>
        obtain ⟨c, st⟩ := x
        intro hf
        simp only [fine, List.all_cons, Bool.and_eq_true, decide_eq_true_eq] at hf
        obtain ⟨⟨rfl, -⟩, hf⟩ := hf
        exact ih hf
    rw [this t hf, htmlSwitch_self]
  · exact key [] (fun _ => rfl) (by rw [h, List.append_nil])

/-- Line breaks make no difference to that. -/
theorem fine_lineBreaks (n : Nat) : ∀ t : Styled, t.length ≤ n → fine (lineBreaks t) = fine t := by
  have cons : ∀ x t, fine (x :: t) = ((decide (x.2 = Style.default) && isChar x.1) && fine t) := fun _ _ => rfl
  have hr : isChar '\r' = true := by decide
  have hn : isChar '\n' = true := by decide
  induction n with
  | zero =>
    intro t ht
    obtain rfl := List.eq_nil_of_length_eq_zero (Nat.le_zero.1 ht)
    rfl
  | succ n ih =>
    intro t ht
    match t with
    | [] => rfl
    | [(c, st)] =>
      rw [lineBreaks]
      split
      · rename_i hc; subst hc; rw [cons, cons, hr, hn]
      · rfl
    | (c, st) :: (d, st') :: t =>
      simp only [List.length_cons] at ht
      rw [lineBreaks]
      split
      · rename_i hc
        subst hc
        split
        · rename_i hd
          obtain ⟨rfl, rfl⟩ := hd
          rw [cons, ih t (by omega), cons, cons, hn, hr]
          cases decide (st = Style.default) <;> simp
        · rw [cons, ih _ (by simp; omega), cons ('\r', st), hn, hr]
      · rw [cons, ih _ (by simp; omega), cons (c, st)]

end Xml

/-- C107: taken as XML, the output is well-formed exactly if no character is in a style and every character is one that XML
has; then it is read as the text that was written (line breaks are normalised). It makes no difference whether `finish` was
called. -/
theorem C107_well_formed (k : FmtSink T) (t : T) (chs : List Chunk) (out : Str)
    (h : HtmlFinished k t chs out ∨ HtmlWrote k t chs out) :
    (∀ r, Spec.Xml.read out = some r ↔
      (∀ x ∈ flatten chs, x.2 = Style.default ∧ Spec.Xml.isChar x.1) ∧ r = text (lineBreaks (flatten chs))) := by
  intro r
  have e : Spec.Xml.read out = if Xml.fine (lineBreaks (flatten chs)) then some (text (lineBreaks (flatten chs))) else none := by
    apply Xml.read_render
    rcases h with h | h
    · left; rw [htmlFinished_eq k t chs out h, newlines_htmlRender]
    · right; rw [htmlWrote_eq k t chs out h, newlines_renderWith]
  rw [e, Xml.fine_lineBreaks _ _ (Nat.le_refl _)]
  have hf : Xml.fine (flatten chs) = true ↔ ∀ x ∈ flatten chs, x.2 = Style.default ∧ Spec.Xml.isChar x.1 := by
    simp [Xml.fine]
  rw [← hf]
  split
  · rename_i h; simp [h, eq_comm]
  · rename_i h; simp [h]

/-- C107: with a style anywhere in it, the output is not well-formed: the attribute value is not in quotes. -/
theorem C107_styled (k : FmtSink T) (t : T) (chs : List Chunk) (out : Str)
    (h : HtmlFinished k t chs out ∨ HtmlWrote k t chs out) (x : Char × Style) (hx : x ∈ flatten chs)
    (hst : x.2 ≠ Style.default) : Spec.Xml.read out = none := by
  cases hr : Spec.Xml.read out with
  | none => rfl
  | some r => exact absurd (((C107_well_formed k t chs out h r).1 hr).1 x hx).1 hst

/-- C107: text in no style, without the control characters XML does not have and without CR, is read exactly as written. -/
theorem C107_plain_text (k : FmtSink T) (t : T) (chs : List Chunk) (out : Str)
    (h : HtmlFinished k t chs out ∨ HtmlWrote k t chs out)
    (hx : ∀ x ∈ flatten chs, x.2 = Style.default ∧ Spec.Xml.isChar x.1 ∧ x.1 ≠ '\r') :
    Spec.Xml.read out = some (text (flatten chs)) := by
  rw [(C107_well_formed k t chs out h _).2 ⟨fun x hm => ⟨(hx x hm).1, (hx x hm).2.1⟩, rfl⟩,
    lineBreaks_id _ fun x hm => (hx x hm).2.2]

/-! ### Samples -/

/-- What the reader accepts and what not. -/
example :
    Spec.Xml.read (str "a &lt; <b x=\"1&amp;\" y = '<'>b</b>") = none ∧
    Spec.Xml.read (str "a &lt; <b x=\"1&amp;\" y = '\"'>b<c/></b >&#x27;&#65;]]") = some (str "a < b'A]]") ∧
    Spec.Xml.read (str "<b x=1>b</b>") = none ∧ Spec.Xml.read (str "<b x='1' x='2'/>") = none ∧
    Spec.Xml.read (str "<b>") = none ∧ Spec.Xml.read (str "</b>") = none ∧ Spec.Xml.read (str "<b></c>") = none ∧
    Spec.Xml.read (str "a & b") = none ∧ Spec.Xml.read (str "&nbsp;") = none ∧ Spec.Xml.read (str "&#0;") = none ∧
    Spec.Xml.read (str "]]>") = none ∧ Spec.Xml.read (str "\x00") = none ∧ Spec.Xml.read (str "a\r\nb") = some (str "a\nb") := by
  decide +kernel

/-- Red text in quotes would be well-formed; as it is written, it is not. -/
example :
    Spec.Xml.read (str "<span style=\"color:red\">a</span>") = some (str "a") ∧
    Spec.Xml.read (str "<span style=color:red>a</span>") = none := by
  decide +kernel

/-- The hypotheses are met by `a]]>b & 'c'`, in no style. -/
example : ∃ out, HtmlFinished stringSink StdString.new [(str "a]]>b & 'c'", Style.default)] out ∧
    Spec.Xml.read out = some (str "a]]>b & 'c'") ∧
    ∀ x ∈ flatten [(str "a]]>b & 'c'", Style.default)], x.2 = Style.default ∧ Spec.Xml.isChar x.1 ∧ x.1 ≠ '\r' := by
  have h := (htmlFinished_exists stringSink stringSink_accepting StdString.new [(str "a]]>b & 'c'", Style.default)]).2
  have hx : ∀ x ∈ flatten [(str "a]]>b & 'c'", Style.default)], x.2 = Style.default ∧ Spec.Xml.isChar x.1 ∧ x.1 ≠ '\r' := by
    decide
  exact ⟨_, h, C107_plain_text _ _ _ _ (.inl h) hx, hx⟩

/-- C107: that is why not every output can be put in an XHTML page: red text cannot, although a browser shows it as HTML. -/
theorem C107_styled_counterexample (hn : names.Standard) :
    let chs : List Chunk := [(str "a", ⟨.Red, .Default, .Normal⟩)]
    ∃ out, HtmlFinished stringSink StdString.new chs out ∧ shows names out = some (flatten chs) ∧
      Spec.Xml.read out = none := by
  intro chs
  have h := (htmlFinished_exists stringSink stringSink_accepting StdString.new chs).2
  exact ⟨_, h, C70_exact names hn _ _ _ _ (.inl h) (by decide),
    C107_styled _ _ _ _ (.inl h) ('a', ⟨.Red, .Default, .Normal⟩) (by decide) (by decide)⟩

end Stylish.Props
