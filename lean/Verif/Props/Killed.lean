import Verif.Lemmas.Killed
import Verif.Props.Cut
import Verif.Props.Buffered
/-
C103: a program that is killed at any moment.
-/

namespace Stylish.Props

open Spec Vt

namespace Killed

theorem muddled_prefix {l l' : Styled} (h : l <+: l') (hm : Muddled l) : Muddled l' := by
  obtain ⟨z, rfl⟩ := h
  obtain ⟨pre, c, st, post, rfl, h2⟩ := hm
  exact ⟨pre, c, st, post ++ z, by simp, h2⟩

theorem said_append (l l' : List Step) : said (l ++ l') = said l ++ said l' := by
  induction l with
  | nil => rfl
  | cons x l ih => cases x <;> simp [said, ih]

theorem flatten_said_prefix {l l' : List Step} (h : l <+: l') : flatten (said l) <+: flatten (said l') := by
  obtain ⟨z, rfl⟩ := h
  rw [said_append, flatten_append]
  exact List.prefix_append _ _

theorem answered_prefix {W : Type} [IoWrite W] (steps : List Step) (w : W) : answered steps w <+: steps := by
  induction steps generalizing w with
  | nil => exact List.prefix_rfl
  | cons x rest ih =>
    unfold answered
    split
    · exact (List.prefix_cons_inj x).2 (ih _)
    · exact List.nil_prefix

theorem upToFlush_prefix (steps : List Step) : upToFlush steps <+: steps := by
  induction steps with
  | nil => exact List.prefix_rfl
  | cons x rest ih =>
    cases x with
    | flush => exact (List.prefix_cons_inj _).2 ih
    | text args =>
      unfold upToFlush
      split
      · exact List.nil_prefix
      · exact (List.prefix_cons_inj _).2 ih

/-- `prefix_utf8`, with as many characters as there are. -/
theorem prefix_utf8_most (s : Str) (p : Bytes) (h : p <+: utf8 s) :
    ∃ s' rest, p = utf8 s' ++ rest ∧ s' <+: s ∧ rest.length ≤ 3 ∧ ∀ z, z <+: s → utf8 z <+: p → z <+: s' := by
  induction s generalizing p with
  | nil => exact ⟨[], [], by simpa [utf8] using h, List.nil_prefix, by simp, fun z hz _ => hz⟩
  | cons c s ih =>
    have e : ∀ s, utf8 (c :: s) = String.utf8EncodeChar c ++ utf8 s := fun _ => rfl
    rw [e] at h
    by_cases hl : (String.utf8EncodeChar c).length ≤ p.length
    · obtain ⟨q, rfl⟩ := List.prefix_of_prefix_length_le (List.prefix_append _ _) h hl
      obtain ⟨s', rest, rfl, h2, h3, h4⟩ := ih q ((List.prefix_append_right_inj _).1 h)
      refine ⟨c :: s', rest, by rw [e, List.append_assoc], (List.prefix_cons_inj c).2 h2, h3, fun z hz hp => ?_⟩
      cases z with
      | nil => exact List.nil_prefix
      | cons d z =>
        obtain ⟨rfl, hz'⟩ := List.cons_prefix_cons.1 hz
        rw [e] at hp
        exact (List.prefix_cons_inj d).2 (h4 z hz' ((List.prefix_append_right_inj _).1 hp))
    · refine ⟨[], p, by simp [utf8], List.nil_prefix, ?_, fun z hz hp => ?_⟩
      · obtain ⟨s', rest, h1, h2, h3⟩ := prefix_utf8 (c :: s) p (by rw [e]; exact h)
        cases s' with
        | nil => rw [h1]; simpa [utf8] using h3
        | cons d s' =>
          obtain ⟨rfl, -⟩ := List.cons_prefix_cons.1 h2
          rw [e] at h1
          rw [h1] at hl
          simp at hl
      · cases z with
        | nil => exact List.nil_prefix
        | cons d z =>
          obtain ⟨rfl, -⟩ := List.cons_prefix_cons.1 hz
          rw [e] at hp
          have := hp.length_le
          rw [List.length_append] at this
          omega

/-- What a terminal shows of bytes between what the steps `done` wrote and what all the steps wrote. -/
theorem seen (steps done : List Step) (hd : done <+: steps) (kind : Kind) (before dev : Bytes)
    (h1 : before ++ utf8 (renderWith ansiSwitch plainEnc Style.default (flatten (said done))) <+: dev)
    (h2 : dev <+: before ++ utf8 (renderWith ansiSwitch plainEnc Style.default (flatten (said steps))))
    (hin : ∀ x ∈ flatten (said steps), x.1 ∉ acts kind)
    (hb : kind.boldFaint = .exclusive ∨ ¬ Muddled (flatten (said steps))) :
    ∃ bytes out cut, dev = before ++ (bytes ++ cut) ∧ decodeUtf8 bytes = some out ∧ cut.length ≤ 3 ∧
      (flatten (said done)).map expected <+: (Screen.fresh.feed kind out).events ∧
      (Screen.fresh.feed kind out).events <+: (flatten (said steps)).map expected := by
  obtain ⟨p, rfl⟩ := (List.prefix_append _ _).trans h1
  rw [List.prefix_append_right_inj] at h1 h2
  obtain ⟨out, cut, rfl, h3, h4, h6⟩ := prefix_utf8_most _ _ h2
  have hf := flatten_said_prefix hd
  have e1 := (C71_exact stringSink StdString.new (said steps) _
    (.inl (ansiFinished_exists stringSink stringSink_accepting StdString.new _).1) kind).2 ⟨hin, hb⟩
  have e2 := (C71_exact stringSink StdString.new (said done) _
    (.inl (ansiFinished_exists stringSink stringSink_accepting StdString.new _).1) kind).2
    ⟨fun x hx => hin x (hf.subset hx), hb.imp id fun h h' => h (muddled_prefix hf h')⟩
  refine ⟨utf8 out, out, cut, rfl, decodeUtf8_utf8 out, h4, ?_, ?_⟩
  · rw [← e2]
    refine CutOff.feed_prefix kind _ _ _ ?_
    refine h6 _ ?_ h1
    obtain ⟨z, hz⟩ := hf
    rw [← hz, renderWith_append]
    exact List.prefix_append _ _
  · rw [← e1]
    exact CutOff.feed_prefix kind _ _ _ h3

end Killed

section
variable {T : Type} [StdIoWrite T] {cap fuel : Nat} {keep : Bytes → Nat → Nat} (k : IoSink T) (hk : FlushKeeps k)
include hk

/-- C103, `io::Ansi` on the device itself: killed at whatever moment, the program has left on the terminal everything
that the calls that returned `Ok` say, and of the rest a part from the start, all of it in the right styles: nothing of
a cut-off escape sequence, at most three bytes of a cut-off character. -/
theorem C103_ansi (steps : List Step) (hs : Sound steps) (t : T) (left n : Nat) (r : Res IoError Unit)
    (a : IoAnsi n (Mortal T)) (h : play steps (IoAnsi.new ⟨t, left⟩) = (r, a)) (kind : Kind)
    (hin : ∀ x ∈ flatten (said steps), x.1 ∉ acts kind)
    (hb : kind.boldFaint = .exclusive ∨ ¬ Muddled (flatten (said steps))) :
    ∃ bytes out cut, k.delivered a.inner.device = k.delivered t ++ (bytes ++ cut) ∧ decodeUtf8 bytes = some out ∧
      cut.length ≤ 3 ∧
      (flatten (said (answered steps (IoAnsi.new ⟨t, left⟩ : IoAnsi n (Mortal T))))).map expected <+:
        (Screen.fresh.feed kind out).events ∧
      (Screen.fresh.feed kind out).events <+: (flatten (said steps)).map expected := by
  obtain ⟨e, h1, -, -⟩ := ((backed_self (mortal k) (mortal_flush hk)).ansi n).play steps hs (IoAnsi.new ⟨t, left⟩)
  rw [h] at e h1
  refine Killed.seen steps _ (Killed.answered_prefix _ _) kind _ _ h1 ?_ hin hb
  exact e.held

/-- C103, `io::Ansi` over a `BufWriter` on the device: everything said before the last flush that returned `Ok` is
there. -/
theorem C103_ansi_buf (hq : QuietPanics k) (steps : List Step) (hs : Sound steps) (t : T) (left n : Nat)
    (r : Res IoError Unit) (a : IoAnsi n (BufWriter cap fuel (Mortal T)))
    (h : play steps (IoAnsi.new (.new ⟨t, left⟩)) = (r, a)) (kind : Kind)
    (hin : ∀ x ∈ flatten (said steps), x.1 ∉ acts kind)
    (hb : kind.boldFaint = .exclusive ∨ ¬ Muddled (flatten (said steps))) :
    ∃ bytes out cut, k.delivered a.inner.inner.device = k.delivered t ++ (bytes ++ cut) ∧
      decodeUtf8 bytes = some out ∧ cut.length ≤ 3 ∧
      (flatten (said (upToFlush (answered steps
        (IoAnsi.new (.new ⟨t, left⟩) : IoAnsi n (BufWriter cap fuel (Mortal T))))))).map expected <+:
        (Screen.fresh.feed kind out).events ∧
      (Screen.fresh.feed kind out).events <+: (flatten (said steps)).map expected := by
  obtain ⟨e, -, -, h1⟩ := ((backed_buf (cap := cap) (fuel := fuel) (mortal k) (mortal_flush hk) (mortal_quiet hq)).ansi
    n).play steps hs (IoAnsi.new (.new ⟨t, left⟩))
  have h1 := h1 (.inr (List.append_nil _).symm)
  rw [h] at e h1
  have e0 : (mortal k).delivered (⟨t, left⟩ : Mortal T) ++ ([] : Bytes) = k.delivered t := List.append_nil _
  have h1 : k.delivered t ++ [] ++ _ <+: k.delivered a.inner.inner.device := h1
  rw [List.append_nil] at h1
  refine Killed.seen steps _ ((Killed.upToFlush_prefix _).trans (Killed.answered_prefix _ _)) kind _ _ h1 ?_ hin hb
  have := e.held
  have h2 : k.delivered a.inner.inner.device ++ a.inner.buf <+: k.delivered t ++ [] ++ _ := this
  rw [List.append_nil] at h2
  exact (List.prefix_append _ _).trans h2

/-- C103, `io::Ansi` over a `LineWriter` on the device (which is what `Stdout` is). -/
theorem C103_ansi_line (hq : QuietPanics k) (steps : List Step) (hs : Sound steps) (t : T) (left n : Nat)
    (r : Res IoError Unit) (a : IoAnsi n (LineWriter cap fuel keep (Mortal T)))
    (h : play steps (IoAnsi.new (.new ⟨t, left⟩)) = (r, a)) (kind : Kind)
    (hin : ∀ x ∈ flatten (said steps), x.1 ∉ acts kind)
    (hb : kind.boldFaint = .exclusive ∨ ¬ Muddled (flatten (said steps))) :
    ∃ bytes out cut, k.delivered a.inner.buffer.inner.device = k.delivered t ++ (bytes ++ cut) ∧
      decodeUtf8 bytes = some out ∧ cut.length ≤ 3 ∧
      (flatten (said (upToFlush (answered steps
        (IoAnsi.new (.new ⟨t, left⟩) : IoAnsi n (LineWriter cap fuel keep (Mortal T))))))).map expected <+:
        (Screen.fresh.feed kind out).events ∧
      (Screen.fresh.feed kind out).events <+: (flatten (said steps)).map expected := by
  obtain ⟨e, -, -, h1⟩ := ((backed_line (cap := cap) (fuel := fuel) (keep := keep) (mortal k) (mortal_flush hk)
    (mortal_quiet hq)).ansi n).play steps hs (IoAnsi.new (.new ⟨t, left⟩))
  have h1 := h1 (.inr (List.append_nil _).symm)
  rw [h] at e h1
  have h1 : k.delivered t ++ [] ++ _ <+: k.delivered a.inner.buffer.inner.device := h1
  rw [List.append_nil] at h1
  refine Killed.seen steps _ ((Killed.upToFlush_prefix _).trans (Killed.answered_prefix _ _)) kind _ _ h1 ?_ hin hb
  have := e.held
  have h2 : k.delivered a.inner.buffer.inner.device ++ a.inner.buffer.buf <+: k.delivered t ++ [] ++ _ := this
  rw [List.append_nil] at h2
  exact (List.prefix_append _ _).trans h2

/-- C103, `io::Plain` on the device itself: the text of the calls that returned `Ok`, then a part of the rest. -/
theorem C103_plain (steps : List Step) (hs : Sound steps) (t : T) (left n : Nat) (r : Res IoError Unit)
    (a : IoPlain n (Mortal T)) (h : play steps (IoPlain.new ⟨t, left⟩) = (r, a)) :
    k.delivered t ++ utf8 ((said (answered steps (IoPlain.new ⟨t, left⟩ : IoPlain n (Mortal T)))).flatMap Prod.fst) <+:
      k.delivered a.inner.device ∧
    k.delivered a.inner.device <+: k.delivered t ++ utf8 ((said steps).flatMap Prod.fst) := by
  obtain ⟨e, h1, -, -⟩ := ((backed_self (mortal k) (mortal_flush hk)).plain n).play steps hs (IoPlain.new ⟨t, left⟩)
  rw [h] at e h1
  exact ⟨h1, e.held⟩

/-- C103, `io::Plain` over a `BufWriter`: the text up to the last flush that returned `Ok`, then a part of the rest. -/
theorem C103_plain_buf (hq : QuietPanics k) (steps : List Step) (hs : Sound steps) (t : T) (left n : Nat)
    (r : Res IoError Unit) (a : IoPlain n (BufWriter cap fuel (Mortal T)))
    (h : play steps (IoPlain.new (.new ⟨t, left⟩)) = (r, a)) :
    k.delivered t ++ utf8 ((said (upToFlush (answered steps
        (IoPlain.new (.new ⟨t, left⟩) : IoPlain n (BufWriter cap fuel (Mortal T)))))).flatMap Prod.fst) <+:
      k.delivered a.inner.inner.device ∧
    k.delivered a.inner.inner.device <+: k.delivered t ++ utf8 ((said steps).flatMap Prod.fst) := by
  obtain ⟨e, -, -, h1⟩ := ((backed_buf (cap := cap) (fuel := fuel) (mortal k) (mortal_flush hk) (mortal_quiet hq)).plain
    n).play steps hs (IoPlain.new (.new ⟨t, left⟩))
  have h1 := h1 (.inr (List.append_nil _).symm)
  rw [h] at e h1
  have h1 : k.delivered t ++ [] ++ _ <+: k.delivered a.inner.inner.device := h1
  have h2 : k.delivered a.inner.inner.device ++ a.inner.buf <+: k.delivered t ++ [] ++ _ := e.held
  rw [List.append_nil] at h1 h2
  exact ⟨h1, (List.prefix_append _ _).trans h2⟩

/-- C103, `io::Plain` over a `LineWriter`: the same, and moreover every complete line of the calls that returned `Ok`,
flushed or not. -/
theorem C103_plain_line (hq : QuietPanics k) (steps : List Step) (hs : Sound steps) (t : T) (left n : Nat)
    (r : Res IoError Unit) (a : IoPlain n (LineWriter cap fuel keep (Mortal T)))
    (h : play steps (IoPlain.new (.new ⟨t, left⟩)) = (r, a)) :
    k.delivered t ++ utf8 ((said (upToFlush (answered steps
        (IoPlain.new (.new ⟨t, left⟩) : IoPlain n (LineWriter cap fuel keep (Mortal T)))))).flatMap Prod.fst) <+:
      k.delivered a.inner.buffer.inner.device ∧
    (∀ lines rest, (said (answered steps
        (IoPlain.new (.new ⟨t, left⟩) : IoPlain n (LineWriter cap fuel keep (Mortal T))))).flatMap Prod.fst =
          lines ++ ['\n'] ++ rest →
      k.delivered t ++ utf8 (lines ++ ['\n']) <+: k.delivered a.inner.buffer.inner.device) ∧
    k.delivered a.inner.buffer.inner.device <+: k.delivered t ++ utf8 ((said steps).flatMap Prod.fst) := by
  have hsend := (backed_line (cap := cap) (fuel := fuel) (keep := keep) (mortal k) (mortal_flush hk)
    (mortal_quiet hq)).plain n
  obtain ⟨e, -, -, h1⟩ := hsend.play steps hs (IoPlain.new (.new ⟨t, left⟩))
  have h1 := h1 (.inr (List.append_nil _).symm)
  have hkept := hsend.play_kept (I := fun w => w.inner.Clear) steps hs (fun step hstep => by
    cases step with
    | text args => exact plain_writeFmt_clear (mortal k) (mortal_quiet hq) args (hs args hstep).1
    | flush => exact plain_flush_clear (mortal k) (mortal_quiet hq) (mortal_flush hk)) (IoPlain.new (.new ⟨t, left⟩)) (by
      intro h; cases h)
  rw [h] at e h1 hkept
  have h1 : k.delivered t ++ [] ++ _ <+: k.delivered a.inner.buffer.inner.device := h1
  have h2 : k.delivered a.inner.buffer.inner.device ++ a.inner.buffer.buf <+: k.delivered t ++ [] ++ _ := e.held
  rw [List.append_nil] at h1 h2
  refine ⟨h1, fun lines rest hl => ?_, (List.prefix_append _ _).trans h2⟩
  obtain ⟨v, hv, h3, h4⟩ := hkept
  have h3 : k.delivered v.inner.buffer.inner.device ++ v.inner.buffer.buf = k.delivered t ++ [] ++ _ := h3
  rw [hl, List.append_nil] at h3
  refine List.IsPrefix.trans ?_ h4
  have e10 : utf8 ['\n'] = [10] := by decide +kernel
  rw [utf8_append, utf8_append, e10, ← List.append_assoc, ← List.append_assoc] at h3
  rw [utf8_append, e10, ← List.append_assoc]
  exact lines_prefix _ _ _ _ h3 hv

end

/-! ### Examples -/

/-- A program that writes a red `é`, flushes, writes `a`, a red and bold `b`, `c`, and flushes again. -/
def fatal : List Step := [.text ⟨redProg⟩, .flush, .text ⟨sampleProg⟩, .flush]

/-- It meets the hypotheses, with text that no terminal takes for a command. -/
example : Sound fatal ∧ (∀ kind, ∀ x ∈ flatten (said fatal), x.1 ∉ acts kind) ∧
    (flatten (said fatal)).map Prod.fst = ['é', 'a', 'b', 'c'] := by
  have e : (flatten (said fatal)).map Prod.fst = ['é', 'a', 'b', 'c'] := by decide +kernel
  refine ⟨?_, ?_, e⟩
  · intro args h
    simp only [fatal, List.mem_cons, Step.text.injEq, reduceCtorEq, false_or, List.not_mem_nil, or_false] at h
    rcases h with rfl | rfl
    · exact ⟨by simp [redProg, Propagates], by decide +kernel⟩
    · refine ⟨⟨rfl, ⟨rfl, trivial⟩, rfl, fun _ args => ?_⟩, by decide +kernel⟩
      dsimp only
      split <;> exact ⟨rfl, trivial⟩
  · intro kind x hx
    have : x.1 ∈ ['é', 'a', 'b', 'c'] := e ▸ List.mem_map_of_mem hx
    rcases kind with ⟨_ | _, _ | _⟩ <;> (revert this; generalize x.1 = c; intro h; revert c; decide +kernel)

/-- The program on a `BufWriter`, killed in the second flush: what the first one flushed is on the device. -/
example : (play fatal (IoAnsi.new (.new ⟨⟨[], []⟩, 2⟩) : IoAnsi 9 (BufWriter 64 9 (Mortal ScriptSink)))).1 = .diverge ∧
    (play fatal (IoAnsi.new (.new ⟨⟨[], []⟩, 2⟩) : IoAnsi 9 (BufWriter 64 9 (Mortal ScriptSink)))).2.inner.inner.device.got
      = utf8 (str "\x1b[31mé") ∧
    said (upToFlush (answered fatal
      (IoAnsi.new (.new ⟨⟨[], []⟩, 2⟩) : IoAnsi 9 (BufWriter 64 9 (Mortal ScriptSink))))) =
      [(['é'], ⟨.Red, .Default, .Normal⟩)] := by
  decide +kernel

/-- Killed one call later, after the device has taken six bytes. -/
example : (play fatal (IoAnsi.new (.new ⟨⟨[.accept 99, .accept 6], []⟩, 3⟩) :
      IoAnsi 9 (BufWriter 64 9 (Mortal ScriptSink)))).2.inner.inner.device.got =
    utf8 (str "\x1b[31mé\x1b[0ma\x1b") := by
  decide +kernel

/-- On the device itself, killed after it has taken one byte of `é`. -/
example : (play fatal (IoAnsi.new ⟨⟨[.accept 99, .accept 99, .accept 99, .accept 1], []⟩, 4⟩ :
      IoAnsi 9 (Mortal ScriptSink))) = (.diverge, ⟨⟨⟨[], utf8 (str "\x1b[31m") ++ [0xC3]⟩, 0⟩, ⟨.Red, .Default, .Normal⟩⟩) ∧
    said (answered fatal (IoAnsi.new ⟨⟨[.accept 99, .accept 99, .accept 99, .accept 1], []⟩, 4⟩ :
      IoAnsi 9 (Mortal ScriptSink))) = [] := by
  decide +kernel

/-- A program that says two lines, one of them not complete yet, and stops without a flush. -/
def halfLine : List Step := [.text ⟨.writeStr (str "one\ntw") .done⟩, .text ⟨.writeStr (str "o") .done⟩]

/-- On a `LineWriter`: the complete line is on the device, though both calls returned `Ok` and more was said. -/
example : (play halfLine (IoPlain.new (.new ⟨⟨[], []⟩, 1⟩) :
      IoPlain 9 (LineWriter 64 9 (stdKeep 64) (Mortal ScriptSink)))).1 = .ok () ∧
    (play halfLine (IoPlain.new (.new ⟨⟨[], []⟩, 1⟩) :
      IoPlain 9 (LineWriter 64 9 (stdKeep 64) (Mortal ScriptSink)))).2.inner.buffer.inner.device.got =
      utf8 (str "one\n") ∧
    (said (answered halfLine (IoPlain.new (.new ⟨⟨[], []⟩, 1⟩) :
      IoPlain 9 (LineWriter 64 9 (stdKeep 64) (Mortal ScriptSink))))).flatMap Prod.fst = str "one\ntwo" := by
  decide +kernel

/-- The scripted device obeys the laws. -/
example : FlushKeeps scriptSink ∧ QuietPanics scriptSink := ⟨scriptSink_flushKeeps, scriptSink_quiet⟩

end Stylish.Props
