import Verif.Spec.Arrange
import Verif.Props.Pick
/-
C121: lines of several outputs arranged with other text.
-/

namespace Stylish.Props

open Spec

variable {T : Type} [FmtWrite T] {names : Browser.Names}

namespace Arrange

theorem chomp_snoc {α : Type} (nl : α → Bool) (l : List α) (c : α) : chomp nl (l ++ [c]) = if nl c then l else l ++ [c] := by
  simp [chomp]

theorem chomp_part {α : Type} (nl : α → Bool) (l : List α) : ∃ r, l = chomp nl l ++ r := by
  unfold chomp
  split
  · rename_i h
    obtain ⟨c, hc, -⟩ := Option.map_eq_some_iff.1 h
    obtain ⟨hn, rfl⟩ := List.getLast?_eq_some_iff.1 hc
    exact ⟨[c], by simp⟩
  · exact ⟨[], by simp⟩

theorem chomp_rend (sw : Style → Style → Str) (enc : Char → Str) (hsw : ∀ a b, '\n' ∉ sw a b)
    (hself : ∀ a, sw a a = []) (hnl : enc '\n' = ['\n']) (henc : ∀ c, c ≠ '\n' → '\n' ∉ enc c) (hne : ∀ c, enc c ≠ [])
    (l : Styled) (hx : ∀ x ∈ l, x.1 = '\n' → x.2 = Style.default) :
    chomp (· = '\n') (Pick.rend sw enc Style.default l) = Pick.rend sw enc Style.default (chomp (·.1 = '\n') l) := by
  rcases List.eq_nil_or_concat l with rfl | ⟨l, ⟨c, st⟩, rfl⟩
  · simp [Pick.rend, renderWith, lastStyle, hself, chomp]
  · rw [List.concat_eq_append, chomp_snoc]
    by_cases hc : c = '\n'
    · subst hc
      obtain rfl : st = Style.default := hx ('\n', st) (by simp) rfl
      have e : Pick.rend sw enc Style.default (l ++ [('\n', Style.default)]) = Pick.rend sw enc Style.default l ++ ['\n'] := by
        simp [Pick.rend, renderWith_append, lastStyle_append, renderWith, lastStyle, hself, hnl]
      rw [e, chomp_snoc]
      simp
    · rw [if_neg (by simpa using hc)]
      have e : Pick.rend sw enc Style.default (l ++ [(c, st)]) =
          (renderWith sw enc Style.default l ++ sw (lastStyle Style.default l) st) ++ (enc c ++ sw st Style.default) := by
        simp [Pick.rend, renderWith_append, lastStyle_append, renderWith, lastStyle]
      rw [e]
      unfold chomp
      rw [if_neg]
      intro h
      obtain ⟨d, hd, hd'⟩ := Option.map_eq_some_iff.1 h
      have hd' : d = '\n' := by simpa using hd'
      subst hd'
      have hn : enc c ++ sw st Style.default ≠ [] := by simp [hne c]
      rw [List.getLast?_append, List.getLast?_eq_some_getLast hn, Option.some_or, ← List.getLast?_eq_some_getLast hn] at hd
      have := List.mem_of_getLast? hd
      rcases List.mem_append.1 this with h | h
      · exact henc c hc h
      · exact hsw _ _ h

theorem chomp_ansi (l : Styled) (hx : ∀ x ∈ l, x.1 = '\n' → x.2 = Style.default) :
    chomp (· = '\n') (ansiRender l) = ansiRender (chomp (·.1 = '\n') l) := by
  refine chomp_rend ansiSwitch plainEnc (fun a b h => ?_) ansiSwitch_self rfl (fun c hc h => ?_) (fun c => by simp [plainEnc]) l hx
  · exact absurd (ansiSwitch_marks a b _ h) (by decide)
  · simp only [plainEnc, List.mem_singleton] at h
    exact hc h.symm

theorem chomp_html (l : Styled) (hx : ∀ x ∈ l, x.1 = '\n' → x.2 = Style.default) :
    chomp (· = '\n') (htmlRender l) = htmlRender (chomp (·.1 = '\n') l) := by
  refine chomp_rend htmlSwitch htmlEnc (fun a b h => ?_) htmlSwitch_self (by decide) (fun c hc h => htmlEnc_nl c hc h)
    enc_ne_nil l hx
  exact absurd (htmlSwitch_printable a b _ h) (by decide)

theorem own_ansi (s : Str) : ansiRender (paint s Style.default) = s := by
  have h : ∀ s : Str, renderWith ansiSwitch plainEnc Style.default (paint s Style.default) = s ∧
      lastStyle Style.default (paint s Style.default) = Style.default := by
    intro s
    induction s with
    | nil => exact ⟨rfl, rfl⟩
    | cons c s ih =>
      have e : paint (c :: s) Style.default = (c, Style.default) :: paint s Style.default := rfl
      rw [e]
      simp only [renderWith, lastStyle, ansiSwitch_self, plainEnc, ih.1, ih.2]
      simp
  unfold ansiRender
  rw [(h s).1, (h s).2, ansiSwitch_self, List.append_nil]

theorem own_html (s : Str) (hs : ∀ c ∈ s, c ∉ ['<', '>', '&', '"', '\'']) : htmlRender (paint s Style.default) = s := by
  have h : ∀ s : Str, (∀ c ∈ s, c ∉ ['<', '>', '&', '"', '\'']) →
      renderWith htmlSwitch htmlEnc Style.default (paint s Style.default) = s ∧
      lastStyle Style.default (paint s Style.default) = Style.default := by
    intro s
    induction s with
    | nil => intro _; exact ⟨rfl, rfl⟩
    | cons c s ih =>
      intro hs
      have ih := ih fun c h => hs c (by simp [h])
      have hc := hs c (by simp)
      simp only [List.mem_cons, List.not_mem_nil, or_false, not_or] at hc
      have e : paint (c :: s) Style.default = (c, Style.default) :: paint s Style.default := rfl
      rw [e]
      simp only [renderWith, lastStyle, htmlSwitch_self, ih.1, ih.2]
      simp [htmlEnc, htmlEntity, hc]
  unfold htmlRender
  rw [(h s hs).1, (h s hs).2, htmlSwitch_self, List.append_nil]

/-- The text of a document there may not be. -/
theorem getD_map {α β : Type} (f : List α → List β) (hf : f [] = []) (ls : List (List α)) (i : Nat) :
    (ls.map f).getD i [] = f (ls.getD i []) := by
  simp only [List.getD_eq_getElem?_getD, List.getElem?_map]
  cases ls[i]? with
  | none => exact hf.symm
  | some l => rfl

theorem getD_mem {α : Type} (ls : List (List α)) (i : Nat) : ls.getD i [] = [] ∨ ls.getD i [] ∈ ls := by
  rw [List.getD_eq_getElem?_getD]
  cases h : ls[i]? with
  | none => exact .inl rfl
  | some l => exact .inr (List.mem_of_getElem? h)

/-- A part of the new text that is a line is a part of a styled text. -/
theorem part_line (texts : List Styled) (d i : Nat) :
    Snippet.part (·.1 = '\n') (fun s => paint s Style.default) texts (.line d i) = [] ∨
    ∃ t ∈ texts, ∃ a b, t = a ++ Snippet.part (·.1 = '\n') (fun s => paint s Style.default) texts (.line d i) ++ b := by
  rcases getD_mem texts d with h | h
  · left
    simp only [Snippet.part]
    rw [h]
    rfl
  · rcases getD_mem (textLines (texts.getD d [])) i with h' | h'
    · left
      simp only [Snippet.part]
      show chomp _ ((textLines (texts.getD d [])).getD i []) = []
      rw [h']
      rfl
    · right
      obtain ⟨a, b, e⟩ := Pick.linesOf_mem _ _ _ h'
      obtain ⟨r, hr⟩ := chomp_part (fun x : Char × Style => decide (x.1 = '\n')) ((textLines (texts.getD d [])).getD i [])
      refine ⟨_, h, a, r ++ b, ?_⟩
      rw [e]
      show a ++ (textLines (texts.getD d [])).getD i [] ++ b = a ++ chomp _ ((textLines (texts.getD d [])).getD i []) ++ (r ++ b)
      conv => lhs; rw [hr]
      simp

theorem ansi_part (texts : List Styled) (hnl : ∀ t ∈ texts, ∀ x ∈ t, x.1 = '\n' → x.2 = Style.default) (it : Snippet) :
    Snippet.part (· = '\n') id (texts.map ansiRender) it =
      ansiRender (Snippet.part (·.1 = '\n') (fun s => paint s Style.default) texts it) := by
  cases it with
  | text s => exact (own_ansi s).symm
  | line d i =>
    have ht : ∀ x ∈ texts.getD d [], x.1 = '\n' → x.2 = Style.default := by
      rcases getD_mem texts d with h | h
      · rw [h]; simp
      · exact hnl _ h
    show chomp _ ((outLines ((texts.map ansiRender).getD d [])).getD i []) = ansiRender (chomp _ ((textLines (texts.getD d [])).getD i []))
    rw [getD_map ansiRender rfl, Pick.ansi_lines _ ht, getD_map ansiRender rfl]
    refine chomp_ansi _ fun x hx => ?_
    rcases getD_mem (textLines (texts.getD d [])) i with h | h
    · rw [h] at hx; cases hx
    · obtain ⟨a, b, e⟩ := Pick.linesOf_mem _ _ _ h
      exact ht x (by rw [e]; exact List.mem_append_left _ (List.mem_append_right _ hx))

theorem html_part (texts : List Styled) (hnl : ∀ t ∈ texts, ∀ x ∈ t, x.1 = '\n' → x.2 = Style.default) (it : Snippet)
    (hit : ∀ s, it = .text s → ∀ c ∈ s, c ∉ ['<', '>', '&', '"', '\'']) :
    Snippet.part (· = '\n') id (texts.map htmlRender) it =
      htmlRender (Snippet.part (·.1 = '\n') (fun s => paint s Style.default) texts it) := by
  cases it with
  | text s => exact (own_html s (hit s rfl)).symm
  | line d i =>
    have ht : ∀ x ∈ texts.getD d [], x.1 = '\n' → x.2 = Style.default := by
      rcases getD_mem texts d with h | h
      · rw [h]; simp
      · exact hnl _ h
    show chomp _ ((outLines ((texts.map htmlRender).getD d [])).getD i []) = htmlRender (chomp _ ((textLines (texts.getD d [])).getD i []))
    rw [getD_map htmlRender rfl, Pick.html_lines _ ht, getD_map htmlRender rfl]
    refine chomp_html _ fun x hx => ?_
    rcases getD_mem (textLines (texts.getD d [])) i with h | h
    · rw [h] at hx; cases hx
    · obtain ⟨a, b, e⟩ := Pick.linesOf_mem _ _ _ h
      exact ht x (by rw [e]; exact List.mem_append_left _ (List.mem_append_right _ hx))

theorem unmuddled_paint (s : Str) : ¬ Vt.Muddled (paint s Style.default) := by
  rintro ⟨pre, c, st, post, e, -, h, -⟩
  have : (c, st) ∈ paint s Style.default := by rw [e]; simp
  obtain ⟨d, -, hd⟩ := List.mem_map.1 this
  have := (Prod.mk.inj hd).2
  subst this
  exact h rfl

end Arrange

open Arrange

section
open Vt

/-- C121: if no line feed is written in a style, then whatever is made of whole lines of finished outputs of `Ansi` and of text of
its own between them, is seen on a terminal as it should (under the conditions of C71): every character of the lines in its style,
all other text in none; and the terminal is left as it was. -/
theorem C121_ansi (k : FmtSink T) (docs : List (T × List Chunk × Str)) (h : ∀ p ∈ docs, AnsiFinished k p.1 p.2.1 p.2.2)
    (hnl : ∀ p ∈ docs, ∀ x ∈ flatten p.2.1, x.1 = '\n' → x.2 = Style.default) (kind : Kind)
    (hin : ∀ p ∈ docs, ∀ x ∈ flatten p.2.1, x.1 ∉ acts kind)
    (hm : kind.boldFaint = .exclusive ∨ ∀ p ∈ docs, ¬ Muddled (flatten p.2.1))
    (items : List Snippet) (hown : OwnWithout (acts kind) items) :
    Screen.fresh.feed kind (arrangeOut (docs.map fun p => p.2.2) items) =
      ⟨.ground, Pen.plain, (arrangeText (docs.map fun p => flatten p.2.1) items).map expected⟩ := by
  have e : docs.map (fun p => p.2.2) = (docs.map fun p => flatten p.2.1).map ansiRender := by
    rw [List.map_map]
    exact List.map_congr_left fun p hp => ansiFinished_eq k p.1 p.2.1 p.2.2 (h p hp)
  rw [e]
  have hnl' : ∀ t ∈ docs.map (fun p => flatten p.2.1), ∀ x ∈ t, x.1 = '\n' → x.2 = Style.default := by
    intro t ht
    obtain ⟨p, hp, rfl⟩ := List.mem_map.1 ht
    exact hnl p hp
  have hin' : ∀ t ∈ docs.map (fun p => flatten p.2.1), ∀ x ∈ t, x.1 ∉ acts kind := by
    intro t ht
    obtain ⟨p, hp, rfl⟩ := List.mem_map.1 ht
    exact hin p hp
  have hm' : kind.boldFaint = .exclusive ∨ ∀ t ∈ docs.map (fun p => flatten p.2.1), ¬ Muddled t := by
    refine hm.imp id fun hm t ht => ?_
    obtain ⟨p, hp, rfl⟩ := List.mem_map.1 ht
    exact hm p hp
  generalize docs.map (fun p => flatten p.2.1) = texts at hnl' hin' hm'
  have e1 : arrangeOut (texts.map ansiRender) items =
      (items.map (Snippet.part (·.1 = '\n') (fun s => paint s Style.default) texts)).flatMap ansiRender := by
    unfold arrangeOut
    rw [List.flatMap_map]
    congr 1
    funext it
    exact ansi_part texts hnl' it
  have e2 : arrangeText texts items =
      (items.map (Snippet.part (·.1 = '\n') (fun s => paint s Style.default) texts)).flatMap id := by
    rw [List.flatMap_map]; rfl
  rw [e1, e2, show Screen.fresh = ⟨.ground, Pen.plain, []⟩ from rfl, Pick.feed_lines kind, List.nil_append]
  · intro l hl
    obtain ⟨it, hit, rfl⟩ := List.mem_map.1 hl
    cases it with
    | text s =>
      intro x hx
      obtain ⟨c, hc, rfl⟩ := List.mem_map.1 hx
      exact hown s hit c hc
    | line d i =>
      rcases part_line texts d i with h | ⟨t, ht, a, b, e⟩
      · rw [h]; simp
      · intro x hx
        exact hin' t ht x (by rw [e]; simp [hx])
  · intro l hl
    obtain ⟨it, hit, rfl⟩ := List.mem_map.1 hl
    rcases hm' with hm' | hm'
    · exact .inl hm'
    right
    cases it with
    | text s => exact unmuddled_paint s
    | line d i =>
      rcases part_line texts d i with h | ⟨t, ht, a, b, e⟩
      · rw [h]; exact unmuddled_paint []
      · exact fun hh => hm' t ht (by rw [e]; exact Pick.muddled_part a _ b hh)

end

/-- C121: the same on a page, with text of its own that means no markup. -/
theorem C121_html (hn : names.Standard) (k : FmtSink T) (docs : List (T × List Chunk × Str))
    (h : ∀ p ∈ docs, HtmlFinished k p.1 p.2.1 p.2.2)
    (hnl : ∀ p ∈ docs, ∀ x ∈ flatten p.2.1, x.1 = '\n' → x.2 = Style.default)
    (hcr : ∀ p ∈ docs, ∀ x ∈ flatten p.2.1, x.1 ≠ '\r' ∧ x.1 ≠ '\x00')
    (items : List Snippet) (hown : OwnWithout ['<', '>', '&', '"', '\'', '\r', '\x00'] items) :
    Browser.shows names (arrangeOut (docs.map fun p => p.2.2) items) =
      some (arrangeText (docs.map fun p => flatten p.2.1) items) := by
  have e : docs.map (fun p => p.2.2) = (docs.map fun p => flatten p.2.1).map htmlRender := by
    rw [List.map_map]
    exact List.map_congr_left fun p hp => htmlFinished_eq k p.1 p.2.1 p.2.2 (h p hp)
  rw [e]
  have hnl' : ∀ t ∈ docs.map (fun p => flatten p.2.1), ∀ x ∈ t, x.1 = '\n' → x.2 = Style.default := by
    intro t ht
    obtain ⟨p, hp, rfl⟩ := List.mem_map.1 ht
    exact hnl p hp
  have hcr' : ∀ t ∈ docs.map (fun p => flatten p.2.1), ∀ x ∈ t, x.1 ≠ '\r' ∧ x.1 ≠ '\x00' := by
    intro t ht
    obtain ⟨p, hp, rfl⟩ := List.mem_map.1 ht
    exact hcr p hp
  generalize docs.map (fun p => flatten p.2.1) = texts at hnl' hcr'
  have e1 : arrangeOut (texts.map htmlRender) items =
      (items.map (Snippet.part (·.1 = '\n') (fun s => paint s Style.default) texts)).flatMap htmlRender := by
    unfold arrangeOut
    rw [List.flatMap_map]
    rw [List.flatMap_def, List.flatMap_def]
    congr 1
    refine List.map_congr_left fun it hit => html_part texts hnl' it ?_
    rintro s rfl c hc hm
    exact hown s hit c hc (by simp only [List.mem_cons, List.not_mem_nil, or_false] at hm ⊢; rcases hm with h | h | h | h | h <;> simp [h])
  have e2 : arrangeText texts items =
      (items.map (Snippet.part (·.1 = '\n') (fun s => paint s Style.default) texts)).flatMap id := by
    rw [List.flatMap_map]; rfl
  rw [e1, e2]
  refine Pick.shows_lines hn _ fun l hl => ?_
  obtain ⟨it, hit, rfl⟩ := List.mem_map.1 hl
  cases it with
  | text s =>
    intro x hx
    obtain ⟨c, hc, rfl⟩ := List.mem_map.1 hx
    have := hown s hit c hc
    simp only [List.mem_cons, List.not_mem_nil, or_false, not_or] at this
    exact ⟨this.2.2.2.2.2.1, this.2.2.2.2.2.2⟩
  | line d i =>
    rcases part_line texts d i with h | ⟨t, ht, a, b, e⟩
    · rw [h]; simp
    · intro x hx
      exact hcr' t ht x (by rw [e]; simp [hx])

/-! ### Samples -/

/-- Two outputs with a line and two lines, in colours. -/
def arrangeDocs : List (StdString × List Chunk × Str) :=
  [(StdString.new, [(str "ok", ⟨.Green, .Default, .Normal⟩)], str "\x1b[32mok\x1b[0m"),
   (StdString.new, [(str "a", ⟨.Default, .Default, .Bold⟩), (str "\n<b>", Style.default)], str "\x1b[1ma\x1b[0m\n<b>")]

example : (∀ p ∈ arrangeDocs, AnsiFinished stringSink p.1 p.2.1 p.2.2) ∧
    (∀ p ∈ arrangeDocs, ∀ x ∈ flatten p.2.1, x.1 = '\n' → x.2 = Style.default) ∧
    (∀ p ∈ arrangeDocs, ∀ x ∈ flatten p.2.1, x.1 ∉ Vt.acts ⟨.exclusive, true⟩) ∧
    OwnWithout (Vt.acts ⟨.exclusive, true⟩) [.line 0 0, .text (str " | "), .line 1 0, .text ['\n'], .line 1 1] := by
  refine ⟨fun p hp => ?_, by decide +kernel, by decide +kernel, fun s hs => ?_⟩
  · simp only [arrangeDocs, List.mem_cons, List.not_mem_nil, or_false] at hp
    rcases hp with rfl | rfl
    · exact (ansiFinished_exists stringSink stringSink_accepting StdString.new _).2
    · exact (ansiFinished_exists stringSink stringSink_accepting StdString.new _).2
  · simp only [List.mem_cons, List.not_mem_nil, or_false, Snippet.text.injEq, reduceCtorEq, false_or] at hs
    rcases hs with rfl | rfl <;> decide +kernel

/-- Side by side; the first output has only one line. -/
example : arrangeOut (arrangeDocs.map fun p => p.2.2) (sideBySide 2) =
      str "\x1b[32mok\x1b[0m\t\x1b[1ma\x1b[0m\n\t<b>\n" ∧
    (arrangeText (arrangeDocs.map fun p => flatten p.2.1) (sideBySide 2)).map Prod.fst = str "ok\ta\n\t<b>\n" := by
  decide +kernel

/-- HTML, with line numbers. -/
example (hn : names.Standard) :
    let docs : List (StdString × List Chunk × Str) := arrangeDocs.map fun p => (p.1, p.2.1, htmlRender (flatten p.2.1))
    (∀ p ∈ docs, HtmlFinished stringSink p.1 p.2.1 p.2.2) ∧
    arrangeOut (docs.map fun p => p.2.2) [.text (str "1: "), .line 1 0, .text (str " 2: "), .line 1 1] =
      str "1: <span style=font-weight:bolder>a</span> 2: &lt;b&gt;" ∧
    Browser.shows names (arrangeOut (docs.map fun p => p.2.2) [.text (str "1: "), .line 1 0, .text (str " 2: "), .line 1 1]) =
      some (paint (str "1: ") Style.default ++ [('a', ⟨.Default, .Default, .Bold⟩)] ++ paint (str " 2: <b>") Style.default) := by
  intro docs
  have h : ∀ p ∈ docs, HtmlFinished stringSink p.1 p.2.1 p.2.2 := by
    intro p hp
    obtain ⟨q, -, rfl⟩ := List.mem_map.1 hp
    exact (htmlFinished_exists stringSink stringSink_accepting _ _).2
  refine ⟨h, by decide +kernel, ?_⟩
  rw [C121_html hn stringSink docs h (by decide +kernel) (by decide +kernel) _ (fun s hs => ?_)]
  · decide +kernel
  · simp only [List.mem_cons, List.not_mem_nil, or_false, Snippet.text.injEq, reduceCtorEq, false_or] at hs
    rcases hs with rfl | rfl <;> decide +kernel

/-- C121: the condition is needed: if a style goes on over a line feed, then the text that is put before the second line is seen in
that style, and the second line is seen in it only because of that. -/
theorem C121_styled_break_counterexample :
    let red : Style := ⟨.Red, .Default, .Normal⟩
    let chs : List Chunk := [(str "a\nb", red)]
    ∃ out, AnsiFinished stringSink StdString.new chs out ∧
      (Vt.Screen.fresh.feed ⟨.exclusive, false⟩ (arrangeOut [out] (quoted (str ">") 2))).events =
        [.print '>' Vt.Pen.plain, .print 'a' (.ofStyle red), .execute '\n', .print '>' (.ofStyle red),
         .print 'b' (.ofStyle red), .execute '\n'] := by
  intro red chs
  exact ⟨_, (ansiFinished_exists stringSink stringSink_accepting StdString.new chs).2, by decide +kernel⟩

end Stylish.Props
