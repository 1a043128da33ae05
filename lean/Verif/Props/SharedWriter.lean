import Verif.Spec.SharedWriter
import Verif.Props.CarryOn
/-
C97: threads that share one writer.
-/

namespace Stylish.Props

open Spec

section
variable {W : Type} [Write W]

/-- A program on a handle makes its writes as long as there are turns. -/
theorem handle_run (hW : Accepting W) (d : Disp) (st : Style) (a : FormatterArgs) (coming : List W) :
    ((writes d st a).1.length ≤ coming.length ∧
      d.run ⟨st, a, (⟨coming, none⟩ : Handle W)⟩ =
        ((writes d st a).2, ⟨st, a, ⟨coming.drop (writes d st a).1.length, none⟩⟩)) ∨
    (coming.length < (writes d st a).1.length ∧
      d.run ⟨st, a, (⟨coming, none⟩ : Handle W)⟩ =
        (.diverge, ⟨st, a, ⟨[], (writes d st a).1[coming.length]?⟩⟩)) := by
  induction d generalizing st a coming with
  | done r => exact .inl ⟨by simp [writes], by cases r <;> rfl⟩
  | panic => exact .inl ⟨by simp [writes], rfl⟩
  | writeStr s k ih =>
    simp only [Disp.run, Formatter.writeStr_eq, writes]
    cases coming with
    | nil => exact .inr ⟨by simp, rfl⟩
    | cons w rest =>
      have e : Write.writeStr s st (⟨w :: rest, none⟩ : Handle W) = (.ok (), ⟨rest, none⟩) := by
        show ((Write.writeStr s st w).1, _) = _
        rw [hW]
      simp only [e, resume]
      rcases ih .ok st a rest with ⟨h1, h2⟩ | ⟨h1, h2⟩
      · exact .inl ⟨by simp; omega, by rw [h2]; simp⟩
      · exact .inr ⟨by simp; omega, by rw [h2]; simp⟩
  | within r body k ihb ihk =>
    simp only [Disp.run, Formatter.with, Formatter.endBorrow, writes]
    rcases hi : writes body (st.with r) a with ⟨log, out⟩
    have hb := ihb (st.with r) a coming
    rw [hi] at hb
    rcases hb with ⟨h1, h2⟩ | ⟨h1, h2⟩
    · rw [h2]
      cases out with
      | panic => exact .inl ⟨h1, rfl⟩
      | diverge => exact .inl ⟨h1, rfl⟩
      | ok u =>
        simp only [resume]
        rcases ihk .ok st a (coming.drop log.length) with ⟨g1, g2⟩ | ⟨g1, g2⟩
        · simp only [List.length_drop] at g1
          exact .inl ⟨by simp at h1 ⊢; omega, by rw [g2]; simp⟩
        · simp only [List.length_drop] at g1
          simp only at h1
          refine .inr ⟨by simp; omega, ?_⟩
          rw [g2, List.length_drop, List.getElem?_append_right h1]
      | err u =>
        simp only [resume]
        rcases ihk .err st a (coming.drop log.length) with ⟨g1, g2⟩ | ⟨g1, g2⟩
        · simp only [List.length_drop] at g1
          exact .inl ⟨by simp at h1 ⊢; omega, by rw [g2]; simp⟩
        · simp only [List.length_drop] at g1
          simp only at h1
          refine .inr ⟨by simp; omega, ?_⟩
          rw [g2, List.length_drop, List.getElem?_append_right h1]
    · rw [h2]
      simp only [resume]
      simp only at h1
      cases out <;> refine .inr ⟨by simp; omega, ?_⟩ <;> simp only <;> rw [List.getElem?_append_left h1]
  | withinArgs a' r body k ihb ihk =>
    simp only [Disp.run, Formatter.withArgs, Formatter.endBorrow, writes]
    rcases hi : writes body (st.with r) a' with ⟨log, out⟩
    have hb := ihb (st.with r) a' coming
    rw [hi] at hb
    rcases hb with ⟨h1, h2⟩ | ⟨h1, h2⟩
    · rw [h2]
      cases out with
      | panic => exact .inl ⟨h1, rfl⟩
      | diverge => exact .inl ⟨h1, rfl⟩
      | ok u =>
        simp only [resume]
        rcases ihk .ok st a (coming.drop log.length) with ⟨g1, g2⟩ | ⟨g1, g2⟩
        · simp only [List.length_drop] at g1
          exact .inl ⟨by simp at h1 ⊢; omega, by rw [g2]; simp⟩
        · simp only [List.length_drop] at g1
          simp only at h1
          refine .inr ⟨by simp; omega, ?_⟩
          rw [g2, List.length_drop, List.getElem?_append_right h1]
      | err u =>
        simp only [resume]
        rcases ihk .err st a (coming.drop log.length) with ⟨g1, g2⟩ | ⟨g1, g2⟩
        · simp only [List.length_drop] at g1
          exact .inl ⟨by simp at h1 ⊢; omega, by rw [g2]; simp⟩
        · simp only [List.length_drop] at g1
          simp only at h1
          refine .inr ⟨by simp; omega, ?_⟩
          rw [g2, List.length_drop, List.getElem?_append_right h1]
    · rw [h2]
      simp only [resume]
      simp only at h1
      cases out <;> refine .inr ⟨by simp; omega, ?_⟩ <;> simp only <;> rw [List.getElem?_append_left h1]
  | inspect k ih => exact ih _ _ _ _ _

/-- The same for a call of `write!`. -/
theorem handle_fmt (hW : Accepting W) (x : Arguments) (coming : List W) :
    ((textOf x).length ≤ coming.length ∧
      Write.writeFmt x (⟨coming, none⟩ : Handle W) = (endOf x, ⟨coming.drop (textOf x).length, none⟩)) ∨
    (coming.length < (textOf x).length ∧
      Write.writeFmt x (⟨coming, none⟩ : Handle W) = (.diverge, ⟨[], (textOf x)[coming.length]?⟩)) := by
  have e : ∀ h : Handle W, Write.writeFmt x h =
      ((x.f.run ⟨Style.default, FormatterArgs.default, h⟩).1,
       (x.f.run ⟨Style.default, FormatterArgs.default, h⟩).2.write) := by
    intro h
    show (_, _) = _
    simp only [Formatter.writeFmt, Formatter.new, Display.fmt]
    simp only [Bind.bind, Act.bind, Pure.pure, Act.pure]
    rcases x.f.run ⟨Style.default, FormatterArgs.default, h⟩ with ⟨r, f⟩
    cases r <;> rfl
  rw [e]
  rcases handle_run hW x.f Style.default FormatterArgs.default coming with ⟨h1, h2⟩ | ⟨h1, h2⟩
  · exact .inl ⟨h1, by rw [h2]; rfl⟩
  · exact .inr ⟨h1, by rw [h2]; rfl⟩

/-- The same for a thread. -/
theorem handle_work (hW : Accepting W) (calls : List Arguments) (coming : List W) :
    (Handle.work calls (⟨coming, none⟩ : Handle W)).2.asked = (calls.flatMap textOf)[coming.length]? ∧
    ((calls.flatMap textOf).length ≤ coming.length →
      (Handle.work calls (⟨coming, none⟩ : Handle W)).1 = calls.map endOf) := by
  induction calls generalizing coming with
  | nil => exact ⟨by simp [Handle.work], fun _ => rfl⟩
  | cons x xs ih =>
    rcases handle_fmt hW x coming with ⟨h1, h2⟩ | ⟨h1, h2⟩
    · obtain ⟨g1, g2⟩ := ih (coming.drop (textOf x).length)
      have hd : endOf x ≠ .diverge := writes_ne_diverge _ _ _
      have e : Handle.work (x :: xs) (⟨coming, none⟩ : Handle W) =
          (endOf x :: (Handle.work xs (⟨coming.drop (textOf x).length, none⟩ : Handle W)).1,
           (Handle.work xs (⟨coming.drop (textOf x).length, none⟩ : Handle W)).2) := by
        simp only [Handle.work, h2]
      rw [e]
      refine ⟨?_, fun hl => ?_⟩
      · rw [g1, List.flatMap_cons, List.getElem?_append_right h1, List.length_drop]
      · simp only [List.flatMap_cons, List.length_append] at hl
        rw [g2 (by rw [List.length_drop]; omega), List.map_cons]
    · have e : Handle.work (x :: xs) (⟨coming, none⟩ : Handle W) = ([], ⟨[], (textOf x)[coming.length]?⟩) := by
        simp only [Handle.work, h2]
      rw [e]
      refine ⟨?_, fun hl => ?_⟩
      · rw [List.flatMap_cons, List.getElem?_append_left h1]
      · simp only [List.flatMap_cons, List.length_append] at hl
        exact absurd hl (by omega)

/-- What a thread is waiting for. -/
theorem waits_eq (hW : Accepting W) (calls : Nat → List Arguments) (i : Nat) (m : Meeting W) :
    m.waits calls i = ((calls i).flatMap textOf)[(m.had i).length]? := (handle_work hW _ _).1

theorem writtenBy_append (i : Nat) (l l' : List (Nat × Chunk)) :
    writtenBy i (l ++ l') = writtenBy i l ++ writtenBy i l' := by simp [writtenBy]

theorem run_cons (calls : Nat → List Arguments) (i : Nat) (rest : List Nat) (m : Meeting W) :
    m.run calls (i :: rest) = (m.turn calls i).run calls rest := rfl

/-- The turns of a schedule, from any point on. -/
theorem meeting_from (hW : Accepting W) (calls : Nat → List Arguments) (schedule : List Nat) (m : Meeting W)
    (hm : ∀ i, (m.had i).length ≤ ((calls i).flatMap textOf).length) :
    writeChunks ((m.log calls schedule).map Prod.snd) m.writer = (.ok (), (m.run calls schedule).writer) ∧
    ∀ i, ((m.run calls schedule).had i).length =
        min ((m.had i).length + schedule.count i) ((calls i).flatMap textOf).length ∧
      ((calls i).flatMap textOf).take (m.had i).length ++ writtenBy i (m.log calls schedule) =
        ((calls i).flatMap textOf).take ((m.run calls schedule).had i).length := by
  induction schedule generalizing m with
  | nil =>
    refine ⟨rfl, fun i => ⟨?_, ?_⟩⟩
    · have := hm i; simp only [Meeting.run, List.foldl_nil, List.count_nil]; omega
    · simp [Meeting.run, Meeting.log, writtenBy]
  | cons j rest ih =>
    have hw := waits_eq hW calls j m
    rw [run_cons]
    by_cases hlt : (m.had j).length < ((calls j).flatMap textOf).length
    · rw [List.getElem?_eq_getElem hlt] at hw
      generalize hch : ((calls j).flatMap textOf)[(m.had j).length] = ch at hw
      have ht : m.turn calls j = ⟨(Write.writeStr ch.1 ch.2 m.writer).2,
          fun i => if i = j then m.had j ++ [m.writer] else m.had i⟩ := by simp only [Meeting.turn, hw]
      have hl : m.log calls (j :: rest) = (j, ch) :: (m.turn calls j).log calls rest := by
        simp only [Meeting.log, hw]
      have hhad : ∀ i, ((m.turn calls j).had i).length = (m.had i).length + if i = j then 1 else 0 := by
        intro i
        rw [ht]
        by_cases hij : i = j
        · subst hij; simp
        · simp [hij]
      obtain ⟨g1, g2⟩ := ih (m.turn calls j) (by
        intro i
        rw [hhad]
        by_cases hij : i = j
        · subst hij; rw [if_pos rfl]; omega
        · rw [if_neg hij]; exact hm i)
      refine ⟨?_, fun i => ?_⟩
      · rw [hl, List.map_cons, writeChunks_cons, hW.writeStr]
        have : (m.turn calls j).writer = (Write.writeStr ch.1 ch.2 m.writer).2 := by rw [ht]
        rw [this] at g1
        exact g1
      · obtain ⟨k1, k2⟩ := g2 i
        rw [hhad] at k1 k2
        by_cases hij : i = j
        · subst hij
          simp only [if_true] at k1 k2
          refine ⟨by rw [k1, List.count_cons_self]; omega, ?_⟩
          rw [← k2, hl, List.take_add_one, List.getElem?_eq_getElem hlt, hch]
          simp [writtenBy]
        · simp only [hij, if_false, Nat.add_zero] at k1 k2
          refine ⟨by rw [k1, List.count_cons_of_ne (Ne.symm hij)], ?_⟩
          rw [← k2, hl]
          simp [writtenBy, Ne.symm hij]
    · rw [List.getElem?_eq_none (by omega)] at hw
      have ht : m.turn calls j = m := by simp only [Meeting.turn, hw]
      have hl : m.log calls (j :: rest) = m.log calls rest := by simp only [Meeting.log, hw, ht]
      rw [ht, hl]
      obtain ⟨g1, g2⟩ := ih m hm
      refine ⟨g1, fun i => ⟨?_, (g2 i).2⟩⟩
      rw [(g2 i).1]
      by_cases hij : i = j
      · subst hij
        have := hm i
        rw [List.count_cons_self]; omega
      · rw [List.count_cons_of_ne (Ne.symm hij)]

/-- C97, any writer that takes every write: whatever the schedule, the writer is where it would be if one thread had
made all the writes, in the order in which they were answered. Of each thread's writes, in their order, those of its
turns were made, none left out and none twice; and a thread that has had as many turns as it makes writes has returned,
each of its calls with its own result, whatever the others do. -/
theorem C97_any_writer (hW : Accepting W) (calls : Nat → List Arguments) (schedule : List Nat) (w : W) :
    let m := (Meeting.start w).run calls schedule
    let log := (Meeting.start w).log calls schedule
    writeChunks (log.map Prod.snd) w = (.ok (), m.writer) ∧
    ∀ i, writtenBy i log = ((calls i).flatMap textOf).take (schedule.count i) ∧
      (m.waits calls i = none ↔ ((calls i).flatMap textOf).length ≤ schedule.count i) ∧
      (m.waits calls i = none → (m.thread calls i).1 = (calls i).map endOf) := by
  intro m log
  obtain ⟨h1, h2⟩ := meeting_from hW calls schedule (Meeting.start w) (fun i => by simp [Meeting.start])
  refine ⟨h1, fun i => ?_⟩
  obtain ⟨g1, g2⟩ := h2 i
  have e0 : ((Meeting.start w).had i).length = 0 := rfl
  rw [e0, Nat.zero_add] at g1
  rw [e0] at g2
  have hw : m.waits calls i = ((calls i).flatMap textOf)[min (schedule.count i) ((calls i).flatMap textOf).length]? := by
    rw [waits_eq hW, g1]
  refine ⟨?_, ?_, fun hn => ?_⟩
  · rw [g1, List.take_zero, List.nil_append] at g2
    refine g2.trans ?_
    rw [List.take_eq_take_iff]
    omega
  · rw [hw, List.getElem?_eq_none_iff]; omega
  · rw [hw, List.getElem?_eq_none_iff] at hn
    exact (handle_work hW (calls i) (m.had i)).2 (by rw [g1]; omega)

end

section
variable {T : Type} [FmtWrite T] (k : FmtSink T) (hT : AcceptingSink T) (t : T) (calls : Nat → List Arguments)
  (schedule : List Nat)
include hT

/-- C97 for `Ansi`: whenever the writer is finished, on a terminal (C14, with its conditions) every character is in the
style it was written in, whatever the other threads wrote in between, in the order of the turns; at the end the terminal
is in its initial state. -/
theorem C97_ansi :
    let m := (Meeting.start (Ansi.new t)).run calls schedule
    let log := ((Meeting.start (Ansi.new t)).log calls schedule).map Prod.snd
    ∃ b out, Ansi.finish m.writer = (.ok (), b) ∧ k.delivered b.inner = k.delivered t ++ out ∧
      AnsiFinished stringSink StdString.new log out ∧
      ∀ kind, NoEsc log → kind = .exclusive ∨ NoBoldFaint (flatten log) →
        (Terminal.fresh.feed kind out).screen = shouldLook (flatten log) ∧
        (Terminal.fresh.feed kind out).attrs = Attrs.initial := by
  intro m log
  have h2 := (C97_any_writer (Ansi.accepting hT) calls schedule (Ansi.new t)).1
  obtain ⟨a, b, h3, h4, h5⟩ := (ansiFinished_exists k hT t log).2
  rw [h2] at h3
  obtain ⟨-, rfl⟩ := Prod.mk.inj h3
  have hS := (ansiFinished_exists stringSink stringSink_accepting StdString.new log).2
  refine ⟨b, _, h4, h5, hS, fun kind hesc hkind => ⟨?_, (C15_finish_resets _ _ _ _ hS kind hesc).1⟩⟩
  have e : Terminal.fresh = ⟨.ground, Attrs.ofStyle Style.default, []⟩ := rfl
  rw [ansiRender, feed_append, e, feed_render kind Style.default _ [] (noEsc_flatten _ hesc)
    (hkind.imp id (noBoldFaint_from _).1), feed_switch kind _ _ _ (Or.inr (by simp [BoldFaint, Style.default]))]
  simp [look, shouldLook]

/-- C97 for `Html`: the page reads back as what was written in the order of the turns, each character in its style. -/
theorem C97_html :
    let m := (Meeting.start (Html.new t)).run calls schedule
    let log := ((Meeting.start (Html.new t)).log calls schedule).map Prod.snd
    ∃ b out, Html.finish m.writer = (.ok (), b) ∧ k.delivered b.inner = k.delivered t ++ out ∧
      HtmlFinished stringSink StdString.new log out ∧ HtmlReader.read out = some (flatten log) := by
  intro m log
  have h2 := (C97_any_writer (Html.accepting hT) calls schedule (Html.new t)).1
  obtain ⟨a, b, h3, h4, h5⟩ := (htmlFinished_exists k hT t log).2
  rw [h2] at h3
  obtain ⟨-, rfl⟩ := Prod.mk.inj h3
  have hS := (htmlFinished_exists stringSink stringSink_accepting StdString.new log).2
  exact ⟨b, _, h4, h5, hS, C19_reads_back _ _ _ _ hS⟩

/-- C97 for `Plain`: the texts in the order of the turns. -/
theorem C97_plain :
    let m := (Meeting.start (Plain.new t)).run calls schedule
    let log := ((Meeting.start (Plain.new t)).log calls schedule).map Prod.snd
    k.delivered (Plain.intoInner m.writer) = k.delivered t ++ log.flatMap Prod.fst :=
  C10_plain_writes k _ t _ (C97_any_writer (plain_accepting hT) calls schedule (Plain.new t)).1

end

/-- C97 for an attributed `String`: displayed anywhere it gives what was written in the order of the turns, each
character in its style. -/
theorem C97_string (calls : Nat → List Arguments) (schedule : List Nat) (style : Style) (args : FormatterArgs) :
    let m := (Meeting.start StyString.new).run calls schedule
    let log := ((Meeting.start StyString.new).log calls schedule).map Prod.snd
    ∃ shown, writes (Display.fmt m.writer) style args = (shown, .ok ()) ∧ flatten shown = flatten log := by
  intro m log
  have h2 := (C97_any_writer StyString.accepting calls schedule StyString.new).1
  obtain ⟨s, h3, shown, h4, h5⟩ := C11_string_remembers log style args
  rw [h2] at h3
  obtain ⟨-, rfl⟩ := Prod.mk.inj h3
  exact ⟨shown, h4, h5⟩

/-- Two threads: one writes a red `a`, a red `b` and fails; then `c`. The other writes a bold `x` and then panics in a
blue `y`. -/
def twoThreads : Nat → List Arguments
  | 0 => [⟨.within ⟨fun s => { s with foreground := .Red }⟩
      (.writeStr ['a'] fun _ => .writeStr ['b'] fun _ => .done .err) .done⟩, ⟨.writeStr ['c'] .done⟩]
  | 1 => [⟨.within ⟨fun s => { s with intensity := .Bold }⟩
      (.writeStr ['x'] fun _ => .within ⟨fun s => { s with foreground := .Blue }⟩
        (.writeStr ['y'] fun _ => .panic) .done) .done⟩]
  | _ => []

/-- Their writes in turn, on a shared `Ansi`. -/
example :
    (let m := (Meeting.start (Ansi.new StdString.new)).run twoThreads [0, 1, 0, 1, 2, 0]
     (Ansi.finish m.writer).2.inner.chars = str "\x1b[31ma\x1b[39;1mx\x1b[31;22mb\x1b[34;1my\x1b[0mc" ∧
     (m.thread twoThreads 0).1 = [.err (), .ok ()] ∧ (m.thread twoThreads 1).1 = [.panic] ∧
     m.waits twoThreads 0 = none) ∧
    (let m := (Meeting.start (Ansi.new StdString.new)).run twoThreads [0, 1]
     m.waits twoThreads 0 = some (['b'], { Style.default with foreground := .Red })) := by decide +kernel

end Stylish.Props
