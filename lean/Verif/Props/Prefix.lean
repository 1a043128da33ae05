import Verif.Props.Io
/-
C29 for formatting implementations that may themselves return an error or panic: what reached a stream is the
start of what reaches a `String` in the same situation.
-/

namespace Stylish.Props

open Spec

/-- Everything the formatting writes, and the end if the formatting returns `Ok`. -/
def reached {β : Type} (sw : Style → Style → List β) (enc : Char → List β) (args : Arguments) : List β :=
  renderWith sw enc Style.default (flatten (denote args).1) ++
    (if (denote args).2 = .ok () then sw (lastStyle Style.default (flatten (denote args).1)) Style.default else [])

theorem reached_of_renders {W β : Type} [Write W] {del : W → List β} {cur : W → Style}
    {sw : Style → Style → List β} {enc : Char → List β} (hrend : Renders del cur sw enc)
    {fin : Act W FmtError Unit} (hfin : ∀ a, Emitted del (fun _ => ()) a (fin a)
      (sw (cur a) Style.default) ())
    (args : Arguments) (hp : Propagates args.f) (w : W) (hcur : cur w = Style.default)
    (r : Res FmtError Unit) (a : W)
    (h : (Write.writeFmt args >>= fun _ => fin) w = (r, a)) :
    ∃ p, p <+: reached sw enc args ∧ del a = del w ++ p ∧
      (r = .ok () → p = reached sw enc args ∧ (denote args).2 = .ok ()) ∧
      (Accepting W → (∀ a, (fin a).1 = .ok ()) → p = reached sw enc args ∧ r = (denote args).2) := by
  rw [Act.bind_apply, Write.writeFmt_propagates args hp] at h
  have e := hrend.writeChunks (denote args).1 w
  rw [hcur] at e
  rcases hc : writeChunks (denote args).1 w with ⟨rc, v⟩
  rw [hc] at e h
  have bad : ∀ x : Res FmtError Unit, (∃ p, p <+: renderWith sw enc Style.default
      (flatten (denote args).1) ∧ del v = del w ++ p) → (x, v) = (r, a) → x ≠ .ok () → rc ≠ .ok () →
      ∃ p, p <+: reached sw enc args ∧ del a = del w ++ p ∧
      (r = .ok () → p = reached sw enc args ∧ (denote args).2 = .ok ()) ∧
      (Accepting W → (∀ a, (fin a).1 = .ok ()) → p = reached sw enc args ∧ r = (denote args).2) := by
    rintro x ⟨p, h1, h2⟩ hx hne hrc
    obtain ⟨rfl, rfl⟩ := Prod.mk.inj hx
    refine ⟨p, h1.trans (List.prefix_append _ _), h2, fun h => absurd h hne, fun hacc _ => ?_⟩
    rw [Accepting.writeChunks hacc] at hc
    exact absurd (Prod.mk.inj hc).1.symm hrc
  have self : ∀ x : Res FmtError Unit, x ≠ .ok () → (denote args).2 = x →
      del v = del w ++ renderWith sw enc Style.default (flatten (denote args).1) → (x, v) = (r, a) →
      ∃ p, p <+: reached sw enc args ∧ del a = del w ++ p ∧
      (r = .ok () → p = reached sw enc args ∧ (denote args).2 = .ok ()) ∧
      (Accepting W → (∀ a, (fin a).1 = .ok ()) → p = reached sw enc args ∧ r = (denote args).2) := by
    rintro x hne hd h2 hx
    obtain ⟨rfl, rfl⟩ := Prod.mk.inj hx
    have hr : reached sw enc args = renderWith sw enc Style.default (flatten (denote args).1) := by
      rw [reached, if_neg (by rw [hd]; exact hne), List.append_nil]
    exact ⟨_, hr ▸ List.prefix_rfl, h2, fun h => absurd h hne, fun _ _ => ⟨hr.symm, hd.symm⟩⟩
  cases rc with
  | err x => exact bad _ e h (by simp) (by simp)
  | panic => exact bad _ e h (by simp) (by simp)
  | diverge => exact bad _ e h (by simp) (by simp)
  | ok u =>
    have e1 : del v = del w ++ _ := e.1
    have e2 : cur v = _ := e.2
    rcases hd : (denote args).2 with u | x | _ | _
    · rw [hd] at h
      have h : fin v = (r, a) := h
      have hr : reached sw enc args = renderWith sw enc Style.default (flatten (denote args).1) ++
          sw (lastStyle Style.default (flatten (denote args).1)) Style.default := by
        rw [reached, if_pos hd]
      have hf := hfin v
      rw [h, e2] at hf
      have nok : ∀ p, p <+: sw (lastStyle Style.default (flatten (denote args).1)) Style.default →
          del a = del v ++ p → r ≠ .ok () →
          ∃ p, p <+: reached sw enc args ∧ del a = del w ++ p ∧
          (r = .ok () → p = reached sw enc args ∧ (Res.ok u : Res FmtError Unit) = .ok ()) ∧
          (Accepting W → (∀ a, (fin a).1 = .ok ()) → p = reached sw enc args ∧ r = .ok u) := by
        intro p h1 h2 hne
        refine ⟨renderWith sw enc Style.default (flatten (denote args).1) ++ p, ?_, ?_, fun h => absurd h hne,
          fun _ hf => ?_⟩
        · rw [hr]; exact (List.prefix_append_right_inj _).2 h1
        · rw [h2, e1, List.append_assoc]
        · have := hf v; rw [h] at this; exact absurd this hne
      cases r with
      | ok u =>
        have f1 : del a = del v ++ _ := hf.1
        exact ⟨_, List.prefix_rfl, by rw [f1, e1, List.append_assoc, hr], fun _ => ⟨rfl, rfl⟩, fun _ _ => ⟨rfl, rfl⟩⟩
      | err x => obtain ⟨p, h1, h2⟩ := hf; exact nok p h1 h2 (by simp)
      | panic => obtain ⟨p, h1, h2⟩ := hf; exact nok p h1 h2 (by simp)
      | diverge => obtain ⟨p, h1, h2⟩ := hf; exact nok p h1 h2 (by simp)
    · rw [hd] at h self; exact self _ (by simp) rfl e1 h
    · rw [hd] at h self; exact self _ (by simp) rfl e1 h
    · rw [hd] at h self; exact self _ (by simp) rfl e1 h

section
variable {T : Type} [FmtWrite T]

/-- C29 for `Ansi`, also if the formatting implementation itself fails: on any stream, whatever goes wrong in it,
what reached it is a prefix of what reaches a `String`, and all of that if the result is `Ok`. -/
theorem C29_ansi_any (k : FmtSink T) (args : Arguments) (hp : Propagates args.f) (t : T) (r : Res FmtError Unit)
    (a : Ansi T) (h : (Ansi.writeFmt args >>= fun _ => Ansi.finish) (Ansi.new t) = (r, a))
    (r' : Res FmtError Unit) (b : Ansi StdString)
    (h' : (Ansi.writeFmt args >>= fun _ => Ansi.finish) (Ansi.new StdString.new) = (r', b)) :
    ∃ p, p <+: b.inner.chars ∧ k.delivered a.inner = k.delivered t ++ p ∧
      (r = .ok () → p = b.inner.chars ∧ r' = .ok ()) := by
  obtain ⟨p, h1, h2, h3, -⟩ := reached_of_renders (Ansi.renders k) (Ansi.finish_emits k) args hp (Ansi.new t) rfl r a h
  obtain ⟨p', -, h5, -, h7⟩ := reached_of_renders (Ansi.renders stringSink) (Ansi.finish_emits stringSink) args hp
    (Ansi.new StdString.new) rfl r' b h'
  obtain ⟨rfl, rfl⟩ := h7 (Ansi.accepting stringSink_accepting) (fun a => by
    obtain ⟨u, w', hw'⟩ := Ansi.finish_neverFails stringSink_accepting a; rw [hw'])
  have e : b.inner.chars = reached ansiSwitch plainEnc args := h5
  rw [e]
  exact ⟨p, h1, h2, h3⟩

/-- C29 for `Html`, also if the formatting implementation itself fails. -/
theorem C29_html_any (k : FmtSink T) (args : Arguments) (hp : Propagates args.f) (t : T) (r : Res FmtError Unit)
    (a : Html T) (h : (Html.writeFmt args >>= fun _ => Html.finish) (Html.new t) = (r, a))
    (r' : Res FmtError Unit) (b : Html StdString)
    (h' : (Html.writeFmt args >>= fun _ => Html.finish) (Html.new StdString.new) = (r', b)) :
    ∃ p, p <+: b.inner.chars ∧ k.delivered a.inner = k.delivered t ++ p ∧
      (r = .ok () → p = b.inner.chars ∧ r' = .ok ()) := by
  obtain ⟨p, h1, h2, h3, -⟩ := reached_of_renders (Html.renders k) (Html.finish_emits k) args hp (Html.new t) rfl r a h
  obtain ⟨p', -, h5, -, h7⟩ := reached_of_renders (Html.renders stringSink) (Html.finish_emits stringSink) args hp
    (Html.new StdString.new) rfl r' b h'
  obtain ⟨rfl, rfl⟩ := h7 (Html.accepting stringSink_accepting) (fun a => by
    obtain ⟨u, w', hw'⟩ := Html.finish_neverFails stringSink_accepting a; rw [hw'])
  have e : b.inner.chars = reached htmlSwitch htmlEnc args := h5
  rw [e]
  exact ⟨p, h1, h2, h3⟩

end

section
variable {T : Type} [StdIoWrite T]

/-- C29 for `io::Plain`, also if the formatting implementation itself fails. -/
theorem C29_io_plain_any (k : IoSink T) (args : Arguments) (hp : Propagates args.f) (log : List Chunk)
    (out : Res FmtError Unit) (hargs : writes args.f Style.default FormatterArgs.default = (log, out))
    (t : T) (fuel : Nat) (r : Res IoError Unit) (a : IoPlain fuel T)
    (h : IoWrite.writeFmt args (IoPlain.new t) = (r, a)) :
    ∃ p, p <+: utf8 (log.flatMap Prod.fst) ∧ k.delivered a.inner = k.delivered t ++ p ∧
      (r = .ok () → p = utf8 (log.flatMap Prod.fst) ∧ out = .ok ()) := by
  have hd : denote args = (log, out) := hargs
  have htext : text (flatten log) = log.flatMap Prod.fst := by
    clear h hargs hd
    induction log with
    | nil => rfl
    | cons ch log ih => simp [ih]
  unfold IoWrite.writeFmt at h
  rw [Write.writeFmt_propagates args hp, hd] at h
  have e := IoPlain.chunks_emits k log (ErrorTrap.new (IoPlain.new t : IoPlain fuel T))
  rcases hc : writeChunks log (ErrorTrap.new (IoPlain.new t : IoPlain fuel T)) with ⟨rc, w⟩
  rw [hc] at e h
  rw [htext] at e
  cases rc with
  | ok u =>
    have e1 := e.1
    rcases out with u | u | _ | _ <;> obtain ⟨rfl, rfl⟩ := Prod.mk.inj h
    · exact ⟨_, List.prefix_rfl, e1, fun _ => ⟨rfl, rfl⟩⟩
    all_goals exact ⟨_, List.prefix_rfl, e1, by simp⟩
  | _ =>
    obtain ⟨rfl, rfl⟩ := Prod.mk.inj h
    obtain ⟨p, h1, h2⟩ := e
    exact ⟨p, h1, h2, by simp⟩

/-- C29 for `io::Ansi`, also if the formatting implementation itself fails: what reached the stream is a prefix of
the bytes of what reaches a `String` through `Ansi`. -/
theorem C29_io_ansi_any (k : IoSink T) (args : Arguments) (hp : Propagates args.f) (t : T) (fuel : Nat)
    (r : Res IoError Unit) (a : IoAnsi fuel T)
    (h : (IoWrite.writeFmt args >>= fun _ => IoAnsi.finish) (IoAnsi.new t) = (r, a))
    (r' : Res FmtError Unit) (b : Ansi StdString)
    (h' : (Ansi.writeFmt args >>= fun _ => Ansi.finish) (Ansi.new StdString.new) = (r', b)) :
    ∃ p, p <+: utf8 b.inner.chars ∧ k.delivered a.inner = k.delivered t ++ p ∧
      (r = .ok () → p = utf8 b.inner.chars ∧ r' = .ok ()) := by
  obtain ⟨p', -, h5, -, h7⟩ := reached_of_renders (Ansi.renders stringSink) (Ansi.finish_emits stringSink) args hp
    (Ansi.new StdString.new) rfl r' b h'
  obtain ⟨rfl, rfl⟩ := h7 (Ansi.accepting stringSink_accepting) (fun a => by
    obtain ⟨u, w', hw'⟩ := Ansi.finish_neverFails stringSink_accepting a; rw [hw'])
  have e0 : b.inner.chars = reached ansiSwitch plainEnc args := h5
  have e3 : utf8 (reached ansiSwitch plainEnc args) = reached ansiSwitchBytes String.utf8EncodeChar args := by
    rw [reached, reached, utf8_append, render_bytes]
    split <;> rfl
  rw [e0, e3]
  rw [Act.bind_apply] at h
  unfold IoWrite.writeFmt at h
  rw [Write.writeFmt_propagates args hp] at h
  have e := (IoAnsi.renders (fuel := fuel) k).writeChunks (denote args).1
    (ErrorTrap.new (IoAnsi.new t : IoAnsi fuel T))
  rcases hc : writeChunks (denote args).1 (ErrorTrap.new (IoAnsi.new t : IoAnsi fuel T)) with ⟨rc, w⟩
  rw [hc] at e h
  cases rc with
  | ok u =>
    have e1 : k.delivered w.inner.inner = k.delivered t ++
      renderWith ansiSwitchBytes String.utf8EncodeChar Style.default (flatten (denote args).1) := e.1
    have e2 : w.inner.current = _ := e.2
    rcases hd : (denote args).2 with u | u | _ | _ <;> rw [hd] at h
    · have h : IoAnsi.finish w.inner = (r, a) := h
      have hr : reached ansiSwitchBytes String.utf8EncodeChar args =
          renderWith ansiSwitchBytes String.utf8EncodeChar Style.default (flatten (denote args).1) ++
            ansiSwitchBytes (lastStyle Style.default (flatten (denote args).1)) Style.default := by
        rw [reached, if_pos hd]
      have hf := IoAnsi.finish_emits k w.inner
      rw [h, e2] at hf
      cases r with
      | ok u =>
        have f1 : k.delivered a.inner = k.delivered w.inner.inner ++ _ := hf.1
        exact ⟨_, List.prefix_rfl, by rw [f1, e1, List.append_assoc, hr]; rfl, fun _ => ⟨rfl, rfl⟩⟩
      | _ =>
        obtain ⟨p, h1, h2⟩ := hf
        have h2' : k.delivered a.inner = k.delivered w.inner.inner ++ p := h2
        exact ⟨renderWith ansiSwitchBytes String.utf8EncodeChar Style.default (flatten (denote args).1) ++ p,
          by rw [hr]; exact (List.prefix_append_right_inj _).2 h1, by rw [h2', e1, List.append_assoc], by simp⟩
    all_goals
      obtain ⟨rfl, rfl⟩ := Prod.mk.inj h
      exact ⟨_, List.prefix_append _ _, e1, by simp⟩
  | _ =>
    obtain ⟨rfl, rfl⟩ := Prod.mk.inj h
    obtain ⟨p, h1, h2⟩ := e
    exact ⟨p, h1.trans (List.prefix_append _ _), h2, by simp⟩

end

/-- A formatting implementation that writes `ab` in red and `c`, and then fails by itself; the stream takes four
characters. -/
example :
    let d : Disp := .within (.of (Foreground.mk .Red)) (.writeStr ['a', 'b'] fun r => .done r) fun r =>
      .try_ (.writeStr ['c'] fun r => .try_ (.done .err) r) r
    Propagates d ∧
    ((Ansi.writeFmt ⟨d⟩ >>= fun _ => Ansi.finish) (Ansi.new (⟨[], 4⟩ : LimitedSink))) =
      (.err (), ⟨⟨str "\x1b[31", 0⟩, Style.default⟩) ∧
    ((Ansi.writeFmt ⟨d⟩ >>= fun _ => Ansi.finish) (Ansi.new StdString.new)) =
      (.err (), ⟨⟨str "\x1b[31mab\x1b[0mc"⟩, Style.default⟩) := by
  refine ⟨⟨⟨rfl, trivial⟩, rfl, rfl, trivial⟩, rfl, rfl⟩

end Stylish.Props
