import Verif.Lemmas.FailureIo
import Verif.Props.Failure
/-
Properties of `io::Ansi` used again after a failed write: C47.
-/

namespace Stylish.Props

open Spec

/-- A call a program can make on an `io` writer. -/
inductive IoCall where
  | write (buf : Bytes) (style : Style)
  | writeAll (buf : Bytes) (style : Style)
  deriving DecidableEq

namespace IoCall

/-- The buffer passed. -/
def buf : IoCall → Bytes
  | write b _ => b
  | writeAll b _ => b

/-- The style passed. -/
def style : IoCall → Style
  | write _ st => st
  | writeAll _ st => st

/-- Make the call; the result is the number of bytes it reports as written. -/
def run {W : Type} [IoWrite W] : IoCall → Act W IoError Nat
  | write b st => IoWrite.write b st
  | writeAll b st => do
    IoWrite.writeAll b st
    return b.length

end IoCall

/-- One call that was tried: the writer before, the call, its result, and the writer after it. -/
structure IoTried (W : Type) where
  before : W
  call : IoCall
  result : Res IoError Nat
  after : W
  deriving DecidableEq

/-- Make the given calls one after the other, whatever their results. -/
def carryOnIo {W : Type} [IoWrite W] : List IoCall → W → List (IoTried W) × W
  | [], w => ([], w)
  | c :: rest, w =>
    let now := c.run w
    let later := carryOnIo rest now.2
    (⟨w, c, now.1, now.2⟩ :: later.1, later.2)

/-- `t` is what such a log may have shown: of each call a prefix of its buffer in its style, and exactly the
`n` bytes it reported if it returned `Ok(n)`. -/
inductive ShownBytes {W : Type} : List (IoTried W) → List (UInt8 × Style) → Prop
  | nil : ShownBytes [] []
  | cons (e : IoTried W) (log : List (IoTried W)) (p : Bytes) (t : List (UInt8 × Style)) :
      p <+: e.call.buf → (∀ n, e.result = .ok n → n ≤ e.call.buf.length ∧ p = e.call.buf.take n) →
      ShownBytes log t → ShownBytes (e :: log) (p.map (fun b => (b, e.call.style)) ++ t)

/-- How bytes in their styles should look. -/
def bytesLook (t : List (UInt8 × Style)) : List (Char × Attrs) :=
  t.map fun x => (byteChar x.1, Attrs.ofStyle x.2)

section
variable {fuel : Nat} {T : Type} [StdIoWrite T]

/-- The terminal after the bytes delivered to the stream of `a` since it was in state `t`. -/
def ioTerminalOf (kind : TermKind) (k : IoSink T) (t : T) (a : IoAnsi fuel T) : Terminal :=
  Terminal.fresh.feedBytes kind ((k.delivered a.inner).drop (k.delivered t).length)

/-- The writer's style and the terminal agree. -/
def IoAnsiSync (kind : TermKind) (k : IoSink T) (t : T) (a : IoAnsi fuel T)
    (shown : List (UInt8 × Style)) : Prop :=
  k.delivered t <+: k.delivered a.inner ∧
  ioTerminalOf kind k t a = ⟨.ground, Attrs.ofStyle a.current, bytesLook shown⟩

theorem ioTerminalOf_append {kind : TermKind} {k : IoSink T} {t : T} {a a' : IoAnsi fuel T} {out : Bytes}
    (hp : k.delivered t <+: k.delivered a.inner)
    (h : k.delivered a'.inner = k.delivered a.inner ++ out) :
    k.delivered t <+: k.delivered a'.inner ∧
    ioTerminalOf kind k t a' = (ioTerminalOf kind k t a).feed kind (out.map byteChar) := by
  refine ⟨by rw [h]; exact hp.trans (List.prefix_append _ _), ?_⟩
  unfold ioTerminalOf Terminal.feedBytes
  rw [h, List.drop_append_of_le_length hp.length_le, List.map_append, feed_append]

theorem bytesLook_paint (shown : List (UInt8 × Style)) (p : Bytes) (st : Style) :
    bytesLook (shown ++ p.map fun b => (b, st)) = bytesLook shown ++ look (paint (p.map byteChar) st) := by
  simp [bytesLook, look, paint, Function.comp_def]

/-- A finished call (returned, not panicked). -/
def Returned (r : Res IoError Nat) : Prop := (∃ n, r = .ok n) ∨ (∃ e, r = .err e)

theorem ioAnsiSync_step {kind : TermKind} {k : IoSink T} {t : T} {a a' : IoAnsi fuel T}
    {shown : List (UInt8 × Style)} (hs : IoAnsiSync kind k t a shown) (c : IoCall)
    (r : Res IoError Nat) (h : c.run a = (r, a')) (hr : Returned r) (hesc : ESC ∉ c.buf.map byteChar)
    (hkind : kind = .exclusive ∨ ¬ BoldFaint a.current c.style)
    (hclean : ∀ e, r = .err e → (ioTerminalOf kind k t a').mode = .ground) :
    (a'.current = a.current ∨ a'.current = c.style) ∧
    ∃ p, p <+: c.buf ∧ (∀ n, r = .ok n → n ≤ c.buf.length ∧ p = c.buf.take n) ∧
      IoAnsiSync kind k t a' (shown ++ p.map fun b => (b, c.style)) := by
  obtain ⟨hpre, hterm⟩ := hs
  have key : IoAnsi.Halt k c.buf c.style r a a' ∨ (c.buf = [] ∧ r = .ok 0 ∧ a' = a) := by
    cases c with
    | write b st => exact Or.inl (IoAnsi.write_halt b st r a a' h hr)
    | writeAll b st =>
      by_cases hb : b = []
      · subst hb
        right
        have : IoCall.run (.writeAll [] st) a = (.ok 0, a) := by
          have e : IoCall.run (.writeAll [] st) a =
            (defaultWriteAll IoAnsi.write fuel [] st >>= fun _ => pure 0) a := rfl
          rw [e, Act.bind_apply, loop_nil]
          rfl
        rw [this] at h
        obtain ⟨rfl, rfl⟩ := Prod.mk.inj h
        exact ⟨rfl, rfl, rfl⟩
      · exact Or.inl (IoAnsi.writeAll_halt b hb st r a a' h hr)
  rcases key with hh | ⟨hb, rfl, rfl⟩
  · cases hh with
    | inSwitch e p hre hc hp hne hd =>
      obtain ⟨h1, h2⟩ := ioTerminalOf_append (kind := kind) hpre hd
      have hm := hclean e hre
      rw [h2, hterm] at hm
      have hp' : p.map byteChar <+: ansiSwitch a.current c.style := by
        rw [← byteChars_ansiSwitch]; exact hp.map _
      have hne' : p.map byteChar ≠ ansiSwitch a.current c.style := by
        rw [← byteChars_ansiSwitch]
        intro e
        have := congrArg List.length e
        simp only [List.length_map] at this
        exact hne (hp.eq_of_length this)
      have hp0 : p = [] := by
        apply Classical.byContradiction
        intro hp0
        exact feed_part kind _ _ _ _ _ hp' hne' (by simpa using hp0) hm
      subst hp0
      refine ⟨Or.inl hc, [], by simp, by simp [hre], h1, ?_⟩
      rw [h2, hterm, hc]
      simp [Terminal.feed]
    | inText p hc hp hn hd =>
      obtain ⟨h1, h2⟩ := ioTerminalOf_append (kind := kind) hpre hd
      refine ⟨Or.inr hc, p, hp, hn, h1, ?_⟩
      have hescp : ESC ∉ p.map byteChar := fun hm => hesc ((hp.map byteChar).subset hm)
      rw [h2, hterm, List.map_append, byteChars_ansiSwitch, feed_append, feed_switch kind _ _ _ hkind,
        feed_texts kind _ _ _ hescp, hc, bytesLook_paint]
  · refine ⟨Or.inl rfl, [], by simp, ?_, hpre, by simpa using hterm⟩
    rintro n ⟨⟩
    simp

theorem ioAnsiSync_carryOn {kind : TermKind} {k : IoSink T} {t : T}
    (P : Style → Prop) (hP : ∀ x y, P x → P y → kind = .exclusive ∨ ¬ BoldFaint x y)
    (cs : List IoCall) (hesc : ∀ c ∈ cs, ESC ∉ c.buf.map byteChar) (hst : ∀ c ∈ cs, P c.style)
    (a a' : IoAnsi fuel T)
    (log : List (IoTried (IoAnsi fuel T))) (h : carryOnIo cs a = (log, a'))
    (hret : ∀ e ∈ log, Returned e.result)
    (hclean : ∀ e ∈ log, ∀ x, e.result = .err x → (ioTerminalOf kind k t e.after).mode = .ground)
    (shown : List (UInt8 × Style)) (hs : IoAnsiSync kind k t a shown) (hcur : P a.current) :
    ∃ more, ShownBytes log more ∧ IoAnsiSync kind k t a' (shown ++ more) := by
  induction cs generalizing a log shown with
  | nil =>
    obtain ⟨rfl, rfl⟩ := Prod.mk.inj h
    exact ⟨[], .nil, by simpa using hs⟩
  | cons c cs ih =>
    rcases hw : c.run a with ⟨r, a1⟩
    rcases hl : carryOnIo cs a1 with ⟨log1, a2⟩
    have e : carryOnIo (c :: cs) a = (⟨a, c, r, a1⟩ :: log1, a2) := by
      simp only [carryOnIo, hw, hl]
    rw [e] at h
    obtain ⟨rfl, rfl⟩ := Prod.mk.inj h
    obtain ⟨hc, p, hp, hpr, hsync⟩ := ioAnsiSync_step hs c r hw (hret ⟨a, c, r, a1⟩ (by simp))
      (hesc c (by simp)) (hP _ _ hcur (hst c (by simp))) (hclean ⟨a, c, r, a1⟩ (by simp))
    have hcur1 : P a1.current := by
      rcases hc with hc | hc <;> rw [hc]
      · exact hcur
      · exact hst c (by simp)
    obtain ⟨more, hm, hsync'⟩ := ih (fun c hc => hesc c (by simp [hc])) (fun c hc => hst c (by simp [hc]))
      a1 log1 hl (fun e he => hret e (by simp [he])) (fun e he => hclean e (by simp [he])) _ hsync hcur1
    exact ⟨p.map (fun b => (b, c.style)) ++ more, .cons ⟨a, c, r, a1⟩ log1 p more hp hpr hm, by
      rw [← List.append_assoc]; exact hsync'⟩

/-- C47 for `io::Ansi` (partial, as `C47_ansi_partial`: no failure may leave an escape sequence
half-written; bytes without ESC; not both bold and faint unless the terminal makes them exclude each other;
the stream does not panic): for every sequence of `write` and `write_all` calls on any stream obeying the
`write` contract - accepting parts, interrupting, failing -, carried on regardless of errors, the terminal
shows of every call a prefix of its bytes in its style, and exactly the reported number if it
succeeded, and nothing else; and `finish` resets the terminal. -/
theorem C47_io_ansi_partial (k : IoSink T) (t : T) (cs : List IoCall)
    (log : List (IoTried (IoAnsi fuel T))) (a : IoAnsi fuel T)
    (h : carryOnIo cs (IoAnsi.new t) = (log, a)) (kind : TermKind)
    (hesc : ∀ c ∈ cs, (0x1b : UInt8) ∉ c.buf)
    (hkind : kind = .exclusive ∨ (∀ c ∈ cs, c.style.intensity ≠ .Bold) ∨
      (∀ c ∈ cs, c.style.intensity ≠ .Faint))
    (hret : ∀ e ∈ log, (∃ n, e.result = .ok n) ∨ (∃ x, e.result = .err x))
    (hclean : ∀ e ∈ log, ∀ x, e.result = .err x → (ioTerminalOf kind k t e.after).mode = .ground) :
    ∃ shown, ShownBytes log shown ∧
      (ioTerminalOf kind k t a).screen = bytesLook shown ∧ (ioTerminalOf kind k t a).mode = .ground ∧
      (∀ b, IoAnsi.finish a = (.ok (), b) →
        ioTerminalOf kind k t b = ⟨.ground, Attrs.initial, bytesLook shown⟩) := by
  have h0 : IoAnsiSync kind k t (IoAnsi.new (fuel := fuel) t) [] := by
    refine ⟨List.prefix_rfl, ?_⟩
    simp [ioTerminalOf, IoAnsi.new, Terminal.feedBytes, Terminal.feed]
    rfl
  have hesc' : ∀ c ∈ cs, ESC ∉ c.buf.map byteChar := by
    intro c hc hm
    obtain ⟨b, hb, he⟩ := List.mem_map.1 hm
    have : b = 0x1b := by
      have h1 : (Char.ofNat b.toNat).toNat = ESC.toNat := congrArg Char.toNat he
      have hv : b.toNat.isValidChar := Or.inl (by have := b.toNat_lt; omega)
      have h2 : (Char.ofNat b.toNat).toNat = b.toNat := by
        rw [Char.ofNat, dif_pos hv]
        rfl
      rw [h2] at h1
      apply UInt8.toNat_inj.1
      rw [h1]
      decide
    exact hesc c hc (this ▸ hb)
  have key : ∃ shown, ShownBytes log shown ∧ IoAnsiSync kind k t a ([] ++ shown) := by
    rcases hkind with hkind | hkind | hkind
    · exact ioAnsiSync_carryOn (fun _ => True) (fun _ _ _ _ => Or.inl hkind) cs hesc'
        (fun _ _ => trivial) _ _ _ h hret hclean _ h0 trivial
    · exact ioAnsiSync_carryOn (fun st => st.intensity ≠ .Bold)
        (fun x y hx hy => Or.inr (fun h => h.elim (fun h => hx h.1) (fun h => hy h.2))) cs hesc'
        hkind _ _ _ h hret hclean _ h0 (by simp [IoAnsi.new, Style.default])
    · exact ioAnsiSync_carryOn (fun st => st.intensity ≠ .Faint)
        (fun x y hx hy => Or.inr (fun h => h.elim (fun h => hy h.2) (fun h => hx h.1))) cs hesc'
        hkind _ _ _ h hret hclean _ h0 (by simp [IoAnsi.new, Style.default])
  obtain ⟨shown, hsh, hpre, hterm⟩ := key
  rw [List.nil_append] at hterm
  refine ⟨shown, hsh, by rw [hterm], by rw [hterm], fun b hb => ?_⟩
  have hf := IoAnsi.finish_emits k a
  rw [hb] at hf
  obtain ⟨-, h2⟩ := ioTerminalOf_append (kind := kind) hpre hf.1
  rw [h2, hterm, byteChars_ansiSwitch,
    feed_switch kind _ _ _ (Or.inr (by simp [BoldFaint, Style.default]))]
  rfl

/-- C47, exactly: when an escape sequence was left half-written, the very next text can get lost. -/
theorem C47_io_ansi_exact (k : IoSink T) (t : T) (a : IoAnsi fuel T) (kind : TermKind)
    (hpre : k.delivered t <+: k.delivered a.inner)
    (hdirty : (ioTerminalOf kind k t a).mode ≠ .ground) :
    ∃ st, ∀ a', IoWrite.writeAll [0x61] st a = (.ok (), a') →
      (ioTerminalOf kind k t a').screen = (ioTerminalOf kind k t a).screen := by
  refine ⟨a.current, fun a' h => ?_⟩
  have he := IoAnsi.writeAll_emits k fuel [0x61] a.current a
  have h : defaultWriteAll IoAnsi.write fuel [0x61] a.current a = (.ok (), a') := h
  rw [h] at he
  have hd := he.1
  simp only [ansiSwitchBytes, ansiSwitch_self, utf8_nil, List.nil_append, List.isEmpty_cons,
    Bool.false_eq_true, if_false] at hd
  obtain ⟨-, h2⟩ := ioTerminalOf_append (kind := kind) hpre hd
  have e : [(0x61 : UInt8)].map byteChar = ['a'] := by decide
  rw [h2, e]
  rcases ht : ioTerminalOf kind k t a with ⟨m, at', scr⟩
  rw [ht] at hdirty
  cases m with
  | ground => simp at hdirty
  | escape => simp [Terminal.feed, Terminal.step, ESC]
  | csi ps => simp [Terminal.feed, Terminal.step, ESC, Char.isDigit]

end

/-- The negation witness: the stream takes the `ESC [` of a red text and then fails once. The program then
writes `abc` in the default style, successfully: `a` is swallowed. -/
theorem C47_io_ansi_counterexample :
    let red : Style := ⟨.Red, .Default, .Normal⟩
    let start : ScriptSink := ⟨[.accept 2, .fail 5], []⟩
    let run := carryOnIo [.writeAll [0x78] red, .writeAll [0x61, 0x62, 0x63] Style.default]
      (IoAnsi.new start : IoAnsi 10 ScriptSink)
    run.1.map (fun e => e.result) = [.err (osError 5), .ok 3] ∧
    (ioTerminalOf .exclusive scriptSink start run.2).screen =
      bytesLook [(0x62, Style.default), (0x63, Style.default)] := by
  decide +kernel

/-- The hypotheses of `C47_io_ansi_partial` are met by a run with interruptions, partial writes, and
failures before an escape sequence and in the middle of a text. -/
example :
    let red : Style := ⟨.Red, .Default, .Normal⟩
    let start : ScriptSink := ⟨[.fail 5, .interrupt, .accept 1, .accept 9, .accept 2, .accept 9, .accept 1,
      .fail 6, .accept 2], []⟩
    let run := carryOnIo [.writeAll [0x76] red, .writeAll [0x77, 0x78] red, .write [0x79, 0x7a, 0x79] red,
      .writeAll [0x7a] Style.default] (IoAnsi.new start : IoAnsi 10 ScriptSink)
    run.1.map (fun e => e.result) = [.err (osError 5), .err (osError 6), .ok 2, .ok 1] ∧
    (∀ e ∈ run.1, (ioTerminalOf .independent scriptSink start e.after).mode = .ground) ∧
    run.2.inner.got = utf8 (str "\x1b[31mwyz\x1b[0mz") := by
  decide +kernel

end Stylish.Props
