import Verif.Spec.Adaptor
import Verif.Props.Convert
/-
Writers of the user's own: C118.
-/

namespace Stylish.Props

open Spec

variable {T U V W S : Type} [FmtWrite T] [FmtWrite U]

/-! ## C118 -/

namespace Adaptors

theorem chunks (f : Adapt S) [Write W] (chs : List Chunk) (x : S) (w : W) :
    ((writeChunks chs (⟨x, w⟩ : Adaptor f W)).1, (writeChunks chs (⟨x, w⟩ : Adaptor f W)).2.inner) =
      writeChunks (passedOn f x chs) w := by
  induction chs generalizing x w with
  | nil => rfl
  | cons ch chs ih =>
    obtain ⟨s, st⟩ := ch
    have e : Write.writeStr s st (⟨x, w⟩ : Adaptor f W) =
      (match writeChunks (f x s st).1 w with
        | (.ok (), w') => (.ok (), ⟨(f x s st).2, w'⟩)
        | (r, w') => (r, ⟨x, w'⟩)) := rfl
    rw [writeChunks_cons, passedOn, writeChunks_append]
    simp only [e]
    rcases writeChunks (f x s st).1 w with ⟨r, w'⟩
    cases r with
    | ok u => exact ih _ _
    | err _ => rfl
    | panic => rfl
    | diverge => rfl

theorem accepting (f : Adapt S) [Write W] (hW : Accepting W) : Accepting (Adaptor f W) := by
  intro s st a
  have e := Accepting.writeChunks hW (f a.state s st).1 a.inner
  show (match writeChunks (f a.state s st).1 a.inner with
        | (.ok (), w') => ((.ok (), ⟨(f a.state s st).2, w'⟩) : Res FmtError Unit × Adaptor f W)
        | (r, w') => (r, ⟨a.state, w'⟩)).1 = _
  rw [e]

theorem tee_accepting [Write V] [Write W] (hV : Accepting V) (hW : Accepting W) : Accepting (Tee V W) := by
  intro s st a
  have e1 := hV s st a.first
  have e2 := hW s st a.second
  show (match Write.writeStr s st a.first with
    | (.ok (), v) => (match Write.writeStr s st a.second with
      | (r, w) => ((r, ⟨v, w⟩) : Res FmtError Unit × Tee V W))
    | (r, v) => (r, ⟨v, a.second⟩)).1 = _
  rcases h1 : Write.writeStr s st a.first with ⟨r, v⟩
  rcases h2 : Write.writeStr s st a.second with ⟨r', w⟩
  rw [h1] at e1
  rw [h2] at e2
  obtain rfl : r = .ok () := e1
  exact e2

end Adaptors

/-- C118: with a writer that passes its texts on, changed as it likes, everything is as if the changed texts had been written
straight to the other writer: the result, and what this writer has, whether it fails or not. -/
theorem C118_writes (f : Adapt S) [Write W] (chs : List Chunk) (x : S) (w : W) :
    (writeChunks chs (⟨x, w⟩ : Adaptor f W)).1 = (writeChunks (passedOn f x chs) w).1 ∧
    (writeChunks chs (⟨x, w⟩ : Adaptor f W)).2.inner = (writeChunks (passedOn f x chs) w).2 := by
  rw [← Adaptors.chunks]
  exact ⟨rfl, rfl⟩

/-- C118: the same for `write!` with any arguments, if the other writer accepts everything. -/
theorem C118_write_fmt (f : Adapt S) [Write W] (hW : Accepting W) (args : Arguments) (log : List Chunk)
    (out : Res FmtError Unit) (h : writes args.f Style.default FormatterArgs.default = (log, out)) (x : S) (w : W) :
    (Write.writeFmt args (⟨x, w⟩ : Adaptor f W)).1 = out ∧
    (Write.writeFmt args (⟨x, w⟩ : Adaptor f W)).2.inner = (writeChunks (passedOn f x log) w).2 := by
  rw [Write.writeFmt_accepting (Adaptors.accepting f hW), denote, h]
  exact ⟨rfl, (C118_writes f log x w).2⟩

/-- C118: and if it does not, with arguments that pass errors on (as all built with `format_args!` do, C53). -/
theorem C118_write_fmt_failing (f : Adapt S) [Write W] (args : Arguments) (hp : Propagates args.f) (log : List Chunk)
    (out : Res FmtError Unit) (h : writes args.f Style.default FormatterArgs.default = (log, out)) (x : S) (w : W) :
    (∀ w', writeChunks (passedOn f x log) w = (.ok (), w') →
      (Write.writeFmt args (⟨x, w⟩ : Adaptor f W)).1 = out ∧ (Write.writeFmt args (⟨x, w⟩ : Adaptor f W)).2.inner = w') ∧
    (∀ r w', r ≠ .ok () → writeChunks (passedOn f x log) w = (r, w') →
      (Write.writeFmt args (⟨x, w⟩ : Adaptor f W)).1 = r ∧ (Write.writeFmt args (⟨x, w⟩ : Adaptor f W)).2.inner = w') := by
  have e := C118_writes f log x w
  rw [Write.writeFmt_propagates args hp, denote, h]
  rcases h0 : writeChunks log (⟨x, w⟩ : Adaptor f W) with ⟨r0, a⟩
  rw [h0] at e
  obtain ⟨e1, e2⟩ := e
  constructor
  · intro w' hw
    rw [hw] at e1 e2
    obtain rfl : r0 = .ok () := e1
    exact ⟨rfl, e2⟩
  · intro r w' hr hw
    rw [hw] at e1 e2
    obtain rfl : r0 = r := e1
    cases r0 with
    | ok u => exact absurd rfl hr
    | err _ => exact ⟨rfl, e2⟩
    | panic => exact ⟨rfl, e2⟩
    | diverge => exact ⟨rfl, e2⟩

/-- C118: so an output written through such a writer is an output of the changed texts. -/
theorem C118_outputs (f : Adapt S) (k : FmtSink T) (t : T) (chs : List Chunk) (x : S) (out : Str) :
    ((∃ a b, writeChunks chs (⟨x, Ansi.new t⟩ : Adaptor f (Ansi T)) = (.ok (), a) ∧ Ansi.finish a.inner = (.ok (), b) ∧
        k.delivered b.inner = k.delivered t ++ out) ↔ AnsiFinished k t (passedOn f x chs) out) ∧
    ((∃ a b, writeChunks chs (⟨x, Html.new t⟩ : Adaptor f (Html T)) = (.ok (), a) ∧ Html.finish a.inner = (.ok (), b) ∧
        k.delivered b.inner = k.delivered t ++ out) ↔ HtmlFinished k t (passedOn f x chs) out) := by
  constructor
  · have e := Adaptors.chunks f chs x (Ansi.new t)
    constructor
    · rintro ⟨a, b, h1, h2, h3⟩
      rw [h1] at e
      exact ⟨a.inner, b, e.symm, h2, h3⟩
    · rintro ⟨a, b, h1, h2, h3⟩
      rw [h1] at e
      obtain ⟨e1, e2⟩ := Prod.mk.inj e
      exact ⟨_, b, Prod.ext e1 rfl, by rw [e2]; exact h2, h3⟩
  · have e := Adaptors.chunks f chs x (Html.new t)
    constructor
    · rintro ⟨a, b, h1, h2, h3⟩
      rw [h1] at e
      exact ⟨a.inner, b, e.symm, h2, h3⟩
    · rintro ⟨a, b, h1, h2, h3⟩
      rw [h1] at e
      obtain ⟨e1, e2⟩ := Prod.mk.inj e
      exact ⟨_, b, Prod.ext e1 rfl, by rw [e2]; exact h2, h3⟩

namespace Adaptors

theorem plain_pass (x : Unit) (chs : List Chunk) : passedOn noColour x chs = chs.map fun ch => (ch.1, Style.default) := by
  induction chs with
  | nil => rfl
  | cons ch chs ih => exact congrArg ((ch.1, Style.default) :: ·) ih

theorem theme_pass (g : Style → Style) (x : Unit) (chs : List Chunk) :
    passedOn (theme g) x chs = chs.map fun ch => (ch.1, g ch.2) := by
  induction chs with
  | nil => rfl
  | cons ch chs ih => exact congrArg ((ch.1, g ch.2) :: ·) ih

theorem flatten_map (g : Style → Style) (chs : List Chunk) :
    flatten (chs.map fun ch => (ch.1, g ch.2)) = (flatten chs).map fun x => (x.1, g x.2) := by
  induction chs with
  | nil => rfl
  | cons ch chs ih =>
    have e : flatten (ch :: chs) = paint ch.1 ch.2 ++ flatten chs := rfl
    have e' : flatten ((ch :: chs).map fun ch => (ch.1, g ch.2)) = paint ch.1 (g ch.2) ++
      flatten (chs.map fun ch => (ch.1, g ch.2)) := rfl
    rw [e, e', ih, List.map_append]
    simp [paint]

end Adaptors

/-- C118: colours switched off this way: what `Ansi` writes is the text alone, as of `Plain`, and the HTML output is read as the
text in the default style. -/
theorem C118_no_colour (k : FmtSink T) (t : T) (chs : List Chunk) (out : Str) :
    (AnsiFinished k t (passedOn noColour () chs) out → out = chs.flatMap Prod.fst) ∧
    (HtmlFinished k t (passedOn noColour () chs) out →
      HtmlReader.read out = some ((chs.flatMap Prod.fst).map fun c => (c, Style.default))) := by
  have ht : flatten (passedOn noColour () chs) = (chs.flatMap Prod.fst).map fun c => (c, Style.default) := by
    rw [Adaptors.plain_pass]
    induction chs with
    | nil => rfl
    | cons ch chs ih =>
      have e : flatten ((ch :: chs).map fun ch => (ch.1, Style.default)) = paint ch.1 Style.default ++
        flatten (chs.map fun ch => (ch.1, Style.default)) := rfl
      rw [e, ih, List.flatMap_cons, List.map_append]
      rfl
  refine ⟨fun h => ?_, fun h => ?_⟩
  · rw [ansiFinished_eq k t _ out h, ht]
    generalize chs.flatMap Prod.fst = s
    have key : ∀ s : Str, renderWith ansiSwitch (fun c => [c]) Style.default (s.map fun c => (c, Style.default)) = s ∧
        lastStyle Style.default (s.map fun c => (c, Style.default)) = Style.default := by
      intro s
      induction s with
      | nil => exact ⟨rfl, rfl⟩
      | cons c s ih =>
        have e : ansiSwitch Style.default Style.default = [] := by decide +kernel
        refine ⟨?_, ih.2⟩
        rw [List.map_cons, renderWith, ih.1, e]
        rfl
    have e : ansiSwitch Style.default Style.default = [] := by decide +kernel
    simp only [ansiRender, key s, e, List.append_nil]
    exact (key s).1
  · rw [C19_reads_back k t _ out h, ht]

/-- C118: with other colours, each character is shown in the style that takes the place of its own. -/
theorem C118_theme (g : Style → Style) (k : FmtSink T) (t : T) (chs : List Chunk) (out : Str) :
    (HtmlFinished k t (passedOn (theme g) () chs) out →
      HtmlReader.read out = some ((flatten chs).map fun x => (x.1, g x.2))) ∧
    (AnsiFinished k t (passedOn (theme g) () chs) out → NoEsc chs → ∀ kind,
      kind = .exclusive ∨ NoBoldFaint ((flatten chs).map fun x => (x.1, g x.2)) →
      (Terminal.fresh.feed kind out).screen = shouldLook ((flatten chs).map fun x => (x.1, g x.2))) := by
  have e : flatten (passedOn (theme g) () chs) = (flatten chs).map fun x => (x.1, g x.2) := by
    rw [Adaptors.theme_pass, Adaptors.flatten_map]
  refine ⟨fun h => by rw [C19_reads_back k t _ out h, e], fun h hesc kind hk => ?_⟩
  rw [← e] at hk ⊢
  refine Convert.screen k t _ out (.inr h) kind ?_ hk
  intro ch hc
  rw [Adaptors.theme_pass] at hc
  obtain ⟨y, hy, rfl⟩ := List.mem_map.1 hc
  exact hesc y hy

/-- C118: a writer that passes everything on to two others: each gets what it would have got alone. -/
theorem C118_tee [Write V] [Write W] (hV : Accepting V) (hW : Accepting W) (args : Arguments) (v : V) (w : W) :
    (Write.writeFmt args (⟨v, w⟩ : Tee V W)).1 = (Write.writeFmt args v).1 ∧
    (Write.writeFmt args (⟨v, w⟩ : Tee V W)).1 = (Write.writeFmt args w).1 ∧
    (Write.writeFmt args (⟨v, w⟩ : Tee V W)).2.first = (Write.writeFmt args v).2 ∧
    (Write.writeFmt args (⟨v, w⟩ : Tee V W)).2.second = (Write.writeFmt args w).2 := by
  rw [Write.writeFmt_accepting (Adaptors.tee_accepting hV hW), Write.writeFmt_accepting hV, Write.writeFmt_accepting hW]
  have key : ∀ (chs : List Chunk) (v : V) (w : W), (writeChunks chs (⟨v, w⟩ : Tee V W)).2 =
      ⟨(writeChunks chs v).2, (writeChunks chs w).2⟩ := by
    intro chs
    induction chs with
    | nil => intro v w; rfl
    | cons ch chs ih =>
      intro v w
      have e : Write.writeStr ch.1 ch.2 (⟨v, w⟩ : Tee V W) =
        (match Write.writeStr ch.1 ch.2 v with
          | (.ok (), v') => (match Write.writeStr ch.1 ch.2 w with
            | (r, w') => ((r, ⟨v', w'⟩) : Res FmtError Unit × Tee V W))
          | (r, v') => (r, ⟨v', w⟩)) := rfl
      have e1 := hV ch.1 ch.2 v
      have e2 := hW ch.1 ch.2 w
      rw [writeChunks_cons, writeChunks_cons, writeChunks_cons, e]
      rcases h1 : Write.writeStr ch.1 ch.2 v with ⟨r, v'⟩
      rcases h2 : Write.writeStr ch.1 ch.2 w with ⟨r', w'⟩
      rw [h1] at e1
      rw [h2] at e2
      obtain rfl : r = .ok () := e1
      obtain rfl : r' = .ok () := e2
      exact ih v' w'
  rw [key]
  exact ⟨rfl, rfl, rfl, rfl⟩

/-- C118: and when one of them fails, the two are at most one text apart: both have been given the same texts, successfully, up to
one text, at which one of them failed; if it was the second, the first has been given this text too. -/
theorem C118_tee_failing [Write V] [Write W] (chs : List Chunk) (v : V) (w : W) (r : Res FmtError Unit) (tee : Tee V W)
    (h : writeChunks chs (⟨v, w⟩ : Tee V W) = (r, tee)) :
    (r = .ok () ∧ writeChunks chs v = (.ok (), tee.first) ∧ writeChunks chs w = (.ok (), tee.second)) ∨
    (r ≠ .ok () ∧ ∃ before ch after v' w', chs = before ++ ch :: after ∧ writeChunks before v = (.ok (), v') ∧
      writeChunks before w = (.ok (), w') ∧
      ((Write.writeStr ch.1 ch.2 v' = (r, tee.first) ∧ tee.second = w') ∨
       (Write.writeStr ch.1 ch.2 v' = (.ok (), tee.first) ∧ Write.writeStr ch.1 ch.2 w' = (r, tee.second)))) := by
  induction chs generalizing v w with
  | nil =>
    obtain ⟨rfl, rfl⟩ := Prod.mk.inj h
    exact .inl ⟨rfl, rfl, rfl⟩
  | cons ch chs ih =>
    have e : Write.writeStr ch.1 ch.2 (⟨v, w⟩ : Tee V W) =
      (match Write.writeStr ch.1 ch.2 v with
        | (.ok (), v') => (match Write.writeStr ch.1 ch.2 w with
          | (r, w') => ((r, ⟨v', w'⟩) : Res FmtError Unit × Tee V W))
        | (r, v') => (r, ⟨v', w⟩)) := rfl
    rw [writeChunks_cons, e] at h
    rw [writeChunks_cons, writeChunks_cons]
    rcases h1 : Write.writeStr ch.1 ch.2 v with ⟨r1, v1⟩
    rcases h2 : Write.writeStr ch.1 ch.2 w with ⟨r2, w1⟩
    rw [h1, h2] at h
    have stop1 : r1 ≠ .ok () → r = r1 ∧ tee = ⟨v1, w⟩ := by
      intro hr
      cases r1 with
      | ok u => exact absurd rfl hr
      | err _ => exact ⟨(Prod.mk.inj h).1.symm, (Prod.mk.inj h).2.symm⟩
      | panic => exact ⟨(Prod.mk.inj h).1.symm, (Prod.mk.inj h).2.symm⟩
      | diverge => exact ⟨(Prod.mk.inj h).1.symm, (Prod.mk.inj h).2.symm⟩
    by_cases hr1 : r1 = .ok ()
    · subst hr1
      have stop2 : r2 ≠ .ok () → r = r2 ∧ tee = ⟨v1, w1⟩ := by
        intro hr
        cases r2 with
        | ok u => exact absurd rfl hr
        | err _ => exact ⟨(Prod.mk.inj h).1.symm, (Prod.mk.inj h).2.symm⟩
        | panic => exact ⟨(Prod.mk.inj h).1.symm, (Prod.mk.inj h).2.symm⟩
        | diverge => exact ⟨(Prod.mk.inj h).1.symm, (Prod.mk.inj h).2.symm⟩
      by_cases hr2 : r2 = .ok ()
      · subst hr2
        rcases ih v1 w1 h with hh | ⟨hr, before, c, after, v', w', rfl, hb1, hb2, hh⟩
        · exact .inl hh
        · exact .inr ⟨hr, ch :: before, c, after, v', w', rfl, by rw [writeChunks_cons, h1]; exact hb1,
            by rw [writeChunks_cons, h2]; exact hb2, hh⟩
      · obtain ⟨rfl, rfl⟩ := stop2 hr2
        exact .inr ⟨hr2, [], ch, chs, v, w, rfl, rfl, rfl, .inr ⟨h1, h2⟩⟩
    · obtain ⟨rfl, rfl⟩ := stop1 hr1
      exact .inr ⟨hr1, [], ch, chs, v, w, rfl, rfl, rfl, .inl ⟨h1, rfl⟩⟩

/-! ### Samples -/

/-- A mark before each line, however the lines are split. -/
example : passedOn (marked ['>'] Style.default) true [(['a'], ⟨.Red, .Default, .Normal⟩), (['b', '\n', 'c'], Style.default)] =
    [(['>'], Style.default), (['a'], ⟨.Red, .Default, .Normal⟩), (['b'], Style.default), (['\n'], Style.default),
      (['>'], Style.default), (['c'], Style.default)] := by decide +kernel

example : ((writeChunks [(['a'], ⟨.Red, .Default, .Normal⟩), (['b'], Style.default)]
    (⟨(), Ansi.new StdString.new⟩ : Adaptor noColour (Ansi StdString))).2.inner.inner.chars = ['a', 'b']) ∧
    ((writeChunks [(['a'], ⟨.Red, .Default, .Normal⟩)]
      (⟨(), Html.new StdString.new⟩ : Adaptor (theme fun st => { st with foreground := .Blue }) (Html StdString))).2.inner.inner.chars =
      str "<span style=color:blue>a") ∧
    ((writeChunks [(['a'], ⟨.Red, .Default, .Normal⟩)]
      (⟨(), Plain.new StdString.new⟩ : Adaptor capitals (Plain StdString))).2.inner.inner.chars = ['A']) := by
  decide +kernel

/-- On the terminal in colours, in the log without. -/
example : let tee := (writeChunks [(['a'], ⟨.Red, .Default, .Normal⟩)] (⟨Ansi.new StdString.new, Plain.new StdString.new⟩ : Tee _ _)).2
    tee.first.inner.chars = str "\x1b[31ma" ∧ tee.second.inner.chars = ['a'] := by
  decide +kernel

end Stylish.Props
