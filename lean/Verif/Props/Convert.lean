import Verif.Spec.Convert
import Verif.Props.Compose
/-
C116: outputs that are converted into each other.
-/

namespace Stylish.Props

open Spec

variable {T U V : Type} [FmtWrite T] [FmtWrite U] [FmtWrite V]

/-! ## C116 -/

namespace Convert

theorem styleOn_ofStyle (st : Style) : styleOn (.ofStyle st) = st := by
  obtain ⟨f, b, i⟩ := st
  cases i <;> rfl

theorem flatten_page (t : Styled) : flatten (fromPage t) = t := by
  induction t with
  | nil => rfl
  | cons x t ih =>
    have e : flatten (fromPage (x :: t)) = x :: flatten (fromPage t) := rfl
    rw [e, ih]

theorem flatten_screen (t : Styled) : flatten (fromScreen (shouldLook t)) = t := by
  induction t with
  | nil => rfl
  | cons x t ih =>
    have e : flatten (fromScreen (shouldLook (x :: t))) =
      (x.1, styleOn (.ofStyle x.2)) :: flatten (fromScreen (shouldLook t)) := rfl
    rw [e, ih, styleOn_ofStyle]

theorem screen (k : FmtSink T) (t : T) (chs : List Chunk) (out : Str) (h : AnsiWrote k t chs out ∨ AnsiFinished k t chs out)
    (kind : TermKind) (hesc : NoEsc chs) (hkind : kind = .exclusive ∨ NoBoldFaint (flatten chs)) :
    (Terminal.fresh.feed kind out).screen = shouldLook (flatten chs) := by
  rcases h with h | h
  · exact (C14_terminal_shows_styles_partial k t chs out h kind hesc hkind).1
  · rw [ansiFinished_eq k t chs out h, ansiRender, feed_append]
    have e : Terminal.fresh = ⟨.ground, Attrs.ofStyle Style.default, []⟩ := rfl
    rw [e, feed_render kind Style.default (flatten chs) [] (noEsc_flatten chs hesc)
      (hkind.imp id (noBoldFaint_from _).1), feed_switch kind _ _ _ (.inr (by simp [BoldFaint, Style.default]))]
    rfl

end Convert

/-- C116: an ANSI output is read by a terminal, and what is on its screen is written with `Html`, `Ansi` or `Plain`: that gives
what the program itself would have written with them. -/
theorem C116_from_ansi (k : FmtSink T) (t : T) (chs : List Chunk) (out : Str)
    (h : AnsiWrote k t chs out ∨ AnsiFinished k t chs out) (kind : TermKind) (hesc : NoEsc chs)
    (hkind : kind = .exclusive ∨ NoBoldFaint (flatten chs)) (k' : FmtSink U) (u : U) (k'' : FmtSink V) (v : V) :
    let read := fromScreen (Terminal.fresh.feed kind out).screen
    (∀ a b, HtmlFinished k' u read a → HtmlFinished k'' v chs b → a = b) ∧
    (∀ a b, AnsiFinished k' u read a → AnsiFinished k'' v chs b → a = b) ∧
    read.flatMap Prod.fst = chs.flatMap Prod.fst := by
  intro read
  have e : flatten read = flatten chs := by
    show flatten (fromScreen _) = _
    rw [Convert.screen k t chs out h kind hesc hkind, Convert.flatten_screen]
  refine ⟨fun a b ha hb => ?_, fun a b ha hb => ?_, ?_⟩
  · rw [htmlFinished_eq _ _ _ _ ha, htmlFinished_eq _ _ _ _ hb, e]
  · rw [ansiFinished_eq _ _ _ _ ha, ansiFinished_eq _ _ _ _ hb, e]
  · have key : ∀ c : List Chunk, c.flatMap Prod.fst = (flatten c).map Prod.fst := by
      intro c
      induction c with
      | nil => rfl
      | cons x c ih =>
        have e : flatten (x :: c) = paint x.1 x.2 ++ flatten c := rfl
        rw [e, List.map_append, ← ih, List.flatMap_cons, paint, List.map_map]
        congr 1
        exact (List.map_id x.1).symm
    rw [key, key, e]

/-- C116: the same for HTML output, of every text. -/
theorem C116_from_html (k : FmtSink T) (t : T) (chs : List Chunk) (out : Str) (h : HtmlFinished k t chs out)
    (k' : FmtSink U) (u : U) (k'' : FmtSink V) (v : V) :
    ∃ page, HtmlReader.read out = some page ∧
      (∀ a b, HtmlFinished k' u (fromPage page) a → HtmlFinished k'' v chs b → a = b) ∧
      (∀ a b, AnsiFinished k' u (fromPage page) a → AnsiFinished k'' v chs b → a = b) ∧
      page.map Prod.fst = chs.flatMap Prod.fst := by
  refine ⟨flatten chs, C19_reads_back k t chs out h, fun a b ha hb => ?_, fun a b ha hb => ?_, ?_⟩
  · rw [htmlFinished_eq _ _ _ _ ha, htmlFinished_eq _ _ _ _ hb, Convert.flatten_page]
  · rw [ansiFinished_eq _ _ _ _ ha, ansiFinished_eq _ _ _ _ hb, Convert.flatten_page]
  · clear h
    induction chs with
    | nil => rfl
    | cons x c ih =>
      have e : flatten (x :: c) = paint x.1 x.2 ++ flatten c := rfl
      rw [e, List.map_append, ih, List.flatMap_cons, paint, List.map_map]
      congr 1
      exact List.map_id x.1

/-- C116: so to convert an output and to convert the result back makes no change: not a byte is different. -/
theorem C116_there_and_back (k : FmtSink T) (t : T) (chs : List Chunk) (kind : TermKind) (hesc : NoEsc chs)
    (hkind : kind = .exclusive ∨ NoBoldFaint (flatten chs)) (k' : FmtSink U) (u : U) (k'' : FmtSink V) (v : V) :
    (∀ a h, AnsiFinished k t chs a → HtmlFinished k' u (fromScreen (Terminal.fresh.feed kind a).screen) h →
      ∃ page, HtmlReader.read h = some page ∧ ∀ a', AnsiFinished k'' v (fromPage page) a' → a' = a) ∧
    (∀ h a, HtmlFinished k t chs h →
      (∃ page, HtmlReader.read h = some page ∧ AnsiFinished k' u (fromPage page) a) →
      ∀ h', HtmlFinished k'' v (fromScreen (Terminal.fresh.feed kind a).screen) h' → h' = h) := by
  constructor
  · intro a h ha hh
    refine ⟨_, C19_reads_back _ _ _ _ hh, fun a' ha' => ?_⟩
    rw [ansiFinished_eq _ _ _ _ ha', Convert.flatten_page, Convert.screen k t chs a (.inr ha) kind hesc hkind,
      Convert.flatten_screen, ansiFinished_eq _ _ _ _ ha]
  · rintro h a hh ⟨page, hp, ha⟩ h' hh'
    obtain rfl : flatten chs = page := by
      rw [C19_reads_back k t chs h hh] at hp
      exact Option.some.inj hp
    have hesc' : NoEsc (fromPage (flatten chs)) := by
      intro ch hc
      obtain ⟨x, hx, rfl⟩ := List.mem_map.1 hc
      have := noEsc_flatten chs hesc x hx
      simpa using fun e => this e.symm
    rw [htmlFinished_eq _ _ _ _ hh', Convert.screen k' u _ a (.inr ha) kind hesc' (by rw [Convert.flatten_page]; exact hkind),
      Convert.flatten_page, Convert.flatten_screen, htmlFinished_eq _ _ _ _ hh]

/-! ### Samples -/

/-- The conditions are met, and there is something to convert. -/
example : NoEsc ansiSample ∧ (flatten ansiSample).length > 3 ∧
    ∃ a h, AnsiFinished stringSink StdString.new ansiSample a ∧
      HtmlFinished stringSink StdString.new (fromScreen (Terminal.fresh.feed .exclusive a).screen) h ∧
      HtmlReader.read h = some (flatten ansiSample) := by
  have hesc : NoEsc ansiSample := by
    intro ch hc
    simp only [ansiSample, List.mem_cons, List.not_mem_nil, or_false] at hc
    rcases hc with rfl | rfl | rfl | rfl | rfl <;> decide
  have ha := (ansiFinished_exists stringSink stringSink_accepting StdString.new ansiSample).2
  refine ⟨hesc, by decide, _, _, ha, (htmlFinished_exists stringSink stringSink_accepting StdString.new _).2, ?_⟩
  rw [C19_reads_back _ _ _ _ (htmlFinished_exists stringSink stringSink_accepting StdString.new _).2,
    Convert.screen _ _ _ _ (.inr ha) .exclusive hesc (.inl rfl), Convert.flatten_screen]

/-- C116: two conditions are needed. On a terminal with independent flags bold text remains so if faint text comes after it, so it
is converted to bold text; and an escape sequence within the text is taken for markup. -/
theorem C116_counterexamples :
    (let chs : List Chunk := [(['a'], ⟨.Default, .Default, .Bold⟩), (['b'], ⟨.Default, .Default, .Faint⟩)]
     ∃ out, AnsiFinished stringSink StdString.new chs out ∧
       flatten (fromScreen (Terminal.fresh.feed .independent out).screen) =
         [('a', ⟨.Default, .Default, .Bold⟩), ('b', ⟨.Default, .Default, .Bold⟩)]) ∧
    (let chs : List Chunk := [(['\x1b', '[', '3', '1', 'm', 'b'], Style.default)]
     ∃ out, AnsiFinished stringSink StdString.new chs out ∧
       flatten (fromScreen (Terminal.fresh.feed .exclusive out).screen) = [('b', ⟨.Red, .Default, .Normal⟩)]) :=
  ⟨⟨_, (ansiFinished_exists stringSink stringSink_accepting StdString.new _).2, by decide +kernel⟩,
    ⟨_, (ansiFinished_exists stringSink stringSink_accepting StdString.new _).2, by decide +kernel⟩⟩

end Stylish.Props
