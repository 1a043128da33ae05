import Verif.Spec.Charset
import Verif.Props.ReplaceIo
/-
C122: outputs read in another encoding.
-/

namespace Stylish.Props

open Spec

variable {T : Type} [FmtWrite T] {E : Charset}

namespace Charset

/-- Misreading as a replacement of characters. -/
def swap (E : Charset) : Replacement := fun c => E.misread [c]

theorem misread_flatMap (E : Charset) (s : Str) : E.misread s = s.flatMap (swap E) := by
  induction s with
  | nil => rfl
  | cons c s ih =>
    have e : E.misread (c :: s) = E.misread [c] ++ E.misread s := by
      unfold Charset.misread
      rw [Search.utf8_cons, List.map_append, Search.utf8_cons c []]
      simp [utf8]
    rw [e, ih, List.flatMap_cons]
    rfl

theorem writes_swap (E : Charset) (chs : List Chunk) : E.writes chs = (swap E).writes chs := by
  unfold Charset.writes Replacement.writes
  exact List.map_congr_left fun ch _ => by rw [misread_flatMap]

theorem swap_ascii (hE : E.ExtendsAscii) (c : Char) (h : c.toNat < 128) : swap E c = [c] := by
  have hn : (UInt8.ofNat c.toNat).toNat = c.toNat := by simp; omega
  unfold swap Charset.misread
  rw [Search.utf8_cons, Replace.encode_ascii c h]
  simp only [utf8, List.flatMap_nil, List.append_nil, List.map_cons, List.map_nil]
  rw [hE.ascii _ (by omega), hn, Char.ofNat_toNat]

theorem swap_high (hE : E.ExtendsAscii) (c : Char) (h : 128 ≤ c.toNat) : ∀ d ∈ swap E c, 128 ≤ d.toNat := by
  unfold swap Charset.misread
  rw [Search.utf8_cons]
  intro d hd
  obtain ⟨b, hb, rfl⟩ := List.mem_map.1 hd
  simp only [utf8, List.flatMap_nil, List.append_nil] at hb
  exact hE.other b (Replace.encode_high c h b hb)

theorem keeps (hE : E.ExtendsAscii) : (swap E).KeepsAscii := by
  intro c hc
  refine swap_ascii hE c ?_
  rcases hc with hc | rfl
  · omega
  · decide

theorem leavesNone : (swap E).LeavesNoneOut := by
  intro c h
  unfold swap Charset.misread at h
  rw [Search.utf8_cons] at h
  simp only [utf8, List.flatMap_nil, List.append_nil, List.map_eq_nil_iff] at h
  exact utf8EncodeChar_ne_nil c h

theorem no_markup (hE : E.ExtendsAscii) (c : Char) (hc : c ∉ markupChars) : ∀ d ∈ swap E c, d ∉ markupChars := by
  intro d hd
  by_cases h : c.toNat < 128
  · rw [swap_ascii hE c h] at hd
    obtain rfl := List.mem_singleton.1 hd
    exact hc
  · have := swap_high hE c (by omega) d hd
    intro hm
    simp only [markupChars, List.mem_cons, List.not_mem_nil, or_false] at hm
    rcases hm with rfl | rfl | rfl | rfl | rfl <;> exact absurd this (by decide)

/-- An ASCII character is in the misread text just if it is in the text. -/
theorem mem_misread (hE : E.ExtendsAscii) (chs : List Chunk) (c : Char) (hc : c.toNat < 128)
    (h : c ∈ text (flatten (E.writes chs))) : c ∈ text (flatten chs) := by
  rw [writes_swap, Replace.flatten_writes] at h
  generalize flatten chs = t at h
  obtain ⟨x, hx, rfl⟩ := List.mem_map.1 h
  obtain ⟨y, hy, hxy⟩ := List.mem_flatMap.1 hx
  obtain ⟨d, hd, rfl⟩ := List.mem_map.1 hxy
  by_cases h' : y.1.toNat < 128
  · rw [swap_ascii hE y.1 h'] at hd
    obtain rfl := List.mem_singleton.1 hd
    exact List.mem_map.2 ⟨y, hy, rfl⟩
  · have := swap_high hE y.1 (by omega) d hd
    have hc : d.toNat < 128 := hc
    omega

end Charset

open Charset

/-- C122: an output of `Ansi` in UTF-8 that is read in another encoding is the output of the same writes of the misread texts:
so no escape sequence is broken. -/
theorem C122_ansi (hE : E.ExtendsAscii) (k : FmtSink T) (t : T) (chs : List Chunk) (out : Str) :
    (AnsiWrote k t chs out → AnsiWrote stringSink StdString.new (E.writes chs) (E.misread out)) ∧
    (AnsiFinished k t chs out → AnsiFinished stringSink StdString.new (E.writes chs) (E.misread out)) := by
  rw [misread_flatMap, writes_swap]
  exact C114_ansi (swap E) (keeps hE) leavesNone k t chs out

/-- C122: so is an output of `Html`: no tag or character reference is broken, and none comes in. -/
theorem C122_html (hE : E.ExtendsAscii) (k : FmtSink T) (t : T) (chs : List Chunk) (out : Str) :
    (HtmlWrote k t chs out → HtmlWrote stringSink StdString.new (E.writes chs) (E.misread out)) ∧
    (HtmlFinished k t chs out → HtmlFinished stringSink StdString.new (E.writes chs) (E.misread out)) := by
  rw [misread_flatMap, writes_swap]
  exact C114_html (swap E) (keeps hE) leavesNone (no_markup hE) k t chs out

/-- C122: so a browser that reads a page in another encoding shows the misread text, each character in the style it was written in,
and takes nothing for a tag but the spans. -/
theorem C122_browser {names : Browser.Names} (hn : names.Standard) (hE : E.ExtendsAscii) (k : FmtSink T) (t : T)
    (chs : List Chunk) (out : Str) (h : HtmlFinished k t chs out ∨ HtmlWrote k t chs out)
    (hcr : ∀ x ∈ flatten chs, x.1 ≠ '\r' ∧ x.1 ≠ '\x00') :
    Browser.shows names (E.misread out) = some (flatten (E.writes chs)) ∧
    ∀ tok ∈ Browser.tokenize names (E.misread out), OwnToken ((flatten (E.writes chs)).map Prod.snd) tok := by
  have h' : HtmlFinished stringSink StdString.new (E.writes chs) (E.misread out) ∨
      HtmlWrote stringSink StdString.new (E.writes chs) (E.misread out) :=
    h.imp (C122_html hE k t chs out).2 (C122_html hE k t chs out).1
  have hcr' : ∀ x ∈ flatten (E.writes chs), x.1 ≠ '\r' ∧ x.1 ≠ '\x00' := by
    intro x hx
    have key : ∀ c : Char, c.toNat < 128 → x.1 = c → ∃ y ∈ flatten chs, y.1 = c := by
      rintro c hc rfl
      obtain ⟨y, hy, e⟩ := List.mem_map.1 (mem_misread hE chs x.1 hc (List.mem_map.2 ⟨x, hx, rfl⟩))
      exact ⟨y, hy, e⟩
    constructor
    · intro e
      obtain ⟨y, hy, e⟩ := key '\r' (by decide) e
      exact (hcr y hy).1 e
    · intro e
      obtain ⟨y, hy, e⟩ := key '\x00' (by decide) e
      exact (hcr y hy).2 e
  exact ⟨C70_exact names hn _ _ _ _ h' hcr', C70_only_spans names hn _ _ _ _ h' fun x hx => (hcr' x hx).2⟩

/-- C122: a terminal that does not know the C1 control characters, which are not ASCII, shows the misread text too, each character
in its style. -/
theorem C122_terminal (hE : E.ExtendsAscii) (k : FmtSink T) (t : T) (chs : List Chunk) (out : Str)
    (h : AnsiWrote k t chs out ∨ AnsiFinished k t chs out) (hesc : ESC ∉ text (flatten chs)) (kind : Vt.Kind)
    (hc1 : kind.c1 = false) (hb : kind.boldFaint = .exclusive ∨ NoBoldFaint (flatten chs)) :
    (Vt.Screen.fresh.feed kind (E.misread out)).events = (flatten (E.writes chs)).map Vt.expected := by
  rw [misread_flatMap, writes_swap]
  refine C114_terminal (swap E) (keeps hE) k t chs out h kind (fun x hx hm => ?_) hb
  rw [Vt.acts, hc1, if_neg (by decide), List.mem_singleton] at hm
  rw [← writes_swap] at hx
  exact hesc (mem_misread hE chs ESC (by decide) (List.mem_map.2 ⟨x, hx, hm⟩))

/-- C122: a text in ASCII is read right. -/
theorem C122_ascii (hE : E.ExtendsAscii) (chs : List Chunk) (h : ∀ x ∈ flatten chs, x.1.toNat < 128) : E.writes chs = chs := by
  rw [writes_swap]
  unfold Replacement.writes
  refine (List.map_congr_left fun ch hch => ?_).trans (List.map_id chs)
  have e : ch.1.flatMap (swap E) = ch.1 := by
    refine Replace.keeps _ fun c hc => swap_ascii hE c ?_
    exact h (c, ch.2) (List.mem_flatMap.2 ⟨ch, hch, List.mem_map.2 ⟨c, hc, rfl⟩⟩)
  rw [e]
  rfl

/-- C122: the bytes that `io::Ansi` sent, read in another encoding. -/
theorem C122_io {T : Type} [StdIoWrite T] (hE : E.ExtendsAscii) (k : IoSink T) (t : T)
    (calls : List Arguments) (logs : List (List Chunk)) (hl : Logs calls logs) (bytes : Bytes)
    (h : IoAnsiFmtFinished k t calls bytes) :
    AnsiFinished stringSink StdString.new (E.writes logs.flatten) (bytes.map E) := by
  have hx := ansiFinished_exists stringSink stringSink_accepting StdString.new logs.flatten
  rw [ioAnsiFmtFinished_eq k t calls logs hl bytes h]
  exact (C122_ansi hE stringSink StdString.new logs.flatten _).2 hx.2

/-! ### Samples -/

theorem latin1_extends : Charset.latin1.ExtendsAscii := by
  refine ⟨fun b _ => rfl, fun b hb => ?_⟩
  have hlt : b.toNat < 256 := b.toNat_lt
  have hv : b.toNat.isValidChar := .inl (by omega)
  have e : (Char.ofNat b.toNat).toNat = b.toNat := by
    unfold Char.ofNat
    rw [dif_pos hv]
    rfl
  show 128 ≤ (Char.ofNat b.toNat).toNat
  omega

example : Charset.latin1.ExtendsAscii := latin1_extends

/-- A name in red, and a text that might be markup. -/
def charsetSample : List Chunk := [(str "Zoë", ⟨.Red, .Default, .Normal⟩), (str " <“x”>", Style.default)]

example : Charset.latin1.misread (ansiRender (flatten charsetSample)) =
      str "\x1b[31mZoÃ«\x1b[0m <â\u0080\u009cxâ\u0080\u009d>" ∧
    Charset.latin1.misread (htmlRender (flatten charsetSample)) =
      str "<span style=color:red>ZoÃ«</span> &lt;â\u0080\u009cxâ\u0080\u009d&gt;" ∧
    ESC ∉ text (flatten charsetSample) ∧ (∀ x ∈ flatten charsetSample, x.1 ≠ '\r' ∧ x.1 ≠ '\x00') := by
  refine ⟨by decide +kernel, by decide +kernel, by decide +kernel, by decide +kernel⟩

/-- Seen on a page: six characters in red instead of three, and no tag. -/
example {names : Browser.Names} (hn : names.Standard) :
    (Browser.shows names (Charset.latin1.misread (htmlRender (flatten [(str "Zoë", ⟨.Red, .Default, .Normal⟩)])))) =
      some (paint (str "ZoÃ«") ⟨.Red, .Default, .Normal⟩) := by
  rw [(C122_browser hn latin1_extends stringSink StdString.new _ _
    (.inl (htmlFinished_exists stringSink stringSink_accepting StdString.new _).2) (by decide +kernel)).1]
  decide +kernel

/-- C122: a terminal that does know the C1 control characters must not be given UTF-8 if it is set up for Latin-1: the letter ě is
then a letter and the beginning of an escape sequence, which takes in what comes after it. -/
theorem C122_c1_counterexample :
    let chs : List Chunk := [(str "ě31mx", Style.default)]
    ∃ out, AnsiFinished stringSink StdString.new chs out ∧ ESC ∉ text (flatten chs) ∧
      (Vt.Screen.fresh.feed ⟨.exclusive, true⟩ (Charset.latin1.misread out)).events =
        [.print 'Ä' Vt.Pen.plain, .print 'x' { Vt.Pen.plain with fg := .indexed 1 }] := by
  intro chs
  exact ⟨_, (ansiFinished_exists stringSink stringSink_accepting StdString.new chs).2, by decide +kernel, by decide +kernel⟩

end Stylish.Props
