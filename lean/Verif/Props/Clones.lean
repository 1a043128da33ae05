import Verif.Spec.Clones
import Verif.Props.Ansi
import Verif.Props.Html
import Verif.Props.Text
import Verif.Props.Io
import Verif.Props.Lines
/-
C98: clones and defaults of writers.
-/

namespace Stylish.Props

open Spec

/-- Following a history that only ever adds to what `del` shows. -/
theorem follow_emits {W E A β σ : Type} [StdClone W] {w : A → Act W E Unit} {del : W → List β} {cur : W → σ}
    {out : σ → List A → List β} {fin : σ → List A → σ}
    (out_nil : ∀ c, out c [] = []) (fin_nil : ∀ c, fin c [] = c)
    (hclone : ∀ s : W, del (StdClone.clone s) = del s ∧ cur (StdClone.clone s) = cur s)
    (all : List (CloneStep A)) (hw : ∀ x s s', CloneStep.write x ∈ all → w x s = (.ok (), s') → ∀ l,
      del s ++ out (cur s) (x :: l) = del s' ++ out (cur s') l ∧ fin (cur s) (x :: l) = fin (cur s') l)
    (steps : List (CloneStep A)) (hall : ∀ x ∈ steps, x ∈ all) (s s' : W)
    (h : CloneStep.follow w steps s = (.ok (), s')) :
    del s' = del s ++ out (cur s) (CloneStep.written steps) ∧ cur s' = fin (cur s) (CloneStep.written steps) := by
  induction steps generalizing s with
  | nil =>
    obtain ⟨-, rfl⟩ := Prod.mk.inj h
    simp [CloneStep.written, out_nil, fin_nil]
  | cons x rest ih =>
    cases x with
    | clone =>
      obtain ⟨h1, h2⟩ := ih (fun x hx => hall x (List.mem_cons_of_mem _ hx)) _ h
      rw [(hclone s).1, (hclone s).2] at h1
      rw [(hclone s).2] at h2
      exact ⟨h1, h2⟩
    | write x =>
      simp only [CloneStep.follow] at h
      rcases hx : w x s with ⟨r, s1⟩
      rw [hx] at h
      cases r with
      | ok u =>
        obtain ⟨h1, h2⟩ := ih (fun x hx => hall x (List.mem_cons_of_mem _ hx)) _ h
        obtain ⟨g1, g2⟩ := hw x s s1 (hall _ (List.mem_cons_self ..)) hx (CloneStep.written rest)
        exact ⟨by rw [h1, CloneStep.written, g1], by rw [h2, CloneStep.written, g2]⟩
      | err e => exact absurd (Prod.mk.inj h).1 (by simp)
      | panic => exact absurd (Prod.mk.inj h).1 (by simp)
      | diverge => exact absurd (Prod.mk.inj h).1 (by simp)

/-- The same for writers that render. -/
theorem follow_renders {W β : Type} [Write W] [StdClone W] {del : W → List β} {cur : W → Style}
    {sw : Style → Style → List β} {enc : Char → List β} (hr : Renders del cur sw enc)
    (hclone : ∀ s : W, del (StdClone.clone s) = del s ∧ cur (StdClone.clone s) = cur s)
    (steps : List (CloneStep Chunk)) (s s' : W) (h : CloneStep.follow writeChunk steps s = (.ok (), s')) :
    del s' = del s ++ renderWith sw enc (cur s) (flatten (CloneStep.written steps)) ∧
    cur s' = lastStyle (cur s) (flatten (CloneStep.written steps)) := by
  refine follow_emits (out := fun c l => renderWith sw enc c (flatten l)) (fin := fun c l => lastStyle c (flatten l))
    (fun _ => rfl) (fun _ => rfl) hclone steps (fun x s s' _ hx l => ?_) steps (fun _ h => h) s s' h
  have := hr x.1 x.2 s
  rw [show Write.writeStr x.1 x.2 s = (.ok (), s') from hx] at this
  obtain ⟨h1, h2⟩ := this
  constructor
  · rw [flatten_cons, renderWith_append, h1, h2, List.append_assoc]
  · rw [flatten_cons, lastStyle_append, h2]

section
variable {T : Type} [FmtWrite T] [StdClone T] (k : FmtSink T)
  (hc : ∀ t : T, k.delivered (StdClone.clone t) = k.delivered t)
include hc

/-- C98 for `Ansi`: whichever clones were taken on the way, what a finished writer has delivered is what it would have
if all the writes since the first had been made on one writer, whatever was written to the others. -/
theorem C98_ansi (steps : List (CloneStep Chunk)) (t : T) (a b : Ansi T)
    (h : CloneStep.follow writeChunk steps (Ansi.new t) = (.ok (), a)) (hf : Ansi.finish a = (.ok (), b)) :
    ∃ out, k.delivered b.inner = k.delivered t ++ out ∧
      AnsiFinished stringSink StdString.new (CloneStep.written steps) out := by
  refine ⟨_, ?_, (ansiFinished_exists stringSink stringSink_accepting StdString.new (CloneStep.written steps)).2⟩
  obtain ⟨h1, h2⟩ := follow_renders (Ansi.renders k) (fun s => ⟨hc s.inner, rfl⟩) steps _ _ h
  have f := Ansi.finish_emits k a
  rw [hf] at f
  have f1 : k.delivered b.inner = k.delivered a.inner ++ _ := f.1
  have h1' : k.delivered a.inner = k.delivered t ++ _ := h1
  rw [f1, h1', h2, List.append_assoc]
  rfl

/-- C98 for `Html`. -/
theorem C98_html (steps : List (CloneStep Chunk)) (t : T) (a b : Html T)
    (h : CloneStep.follow writeChunk steps (Html.new t) = (.ok (), a)) (hf : Html.finish a = (.ok (), b)) :
    ∃ out, k.delivered b.inner = k.delivered t ++ out ∧
      HtmlFinished stringSink StdString.new (CloneStep.written steps) out := by
  refine ⟨_, ?_, (htmlFinished_exists stringSink stringSink_accepting StdString.new (CloneStep.written steps)).2⟩
  obtain ⟨h1, h2⟩ := follow_renders (Html.renders k) (fun s => ⟨hc s.inner, rfl⟩) steps _ _ h
  have f := Html.finish_emits k a
  rw [hf] at f
  have f1 : k.delivered b.inner = k.delivered a.inner ++ _ := f.1
  have h1' : k.delivered a.inner = k.delivered t ++ _ := h1
  rw [f1, h1', h2, List.append_assoc]
  rfl

/-- C98 for `Plain`. -/
theorem C98_plain (steps : List (CloneStep Chunk)) (t : T) (a : Plain T)
    (h : CloneStep.follow writeChunk steps (Plain.new t) = (.ok (), a)) :
    k.delivered (Plain.intoInner a) = k.delivered t ++ (CloneStep.written steps).flatMap Prod.fst := by
  refine (follow_emits (del := fun w : Plain T => k.delivered w.inner) (cur := fun _ => ())
    (out := fun _ l => l.flatMap Prod.fst) (fin := fun _ _ => ())
    (fun _ => rfl) (fun _ => rfl) (fun s => ⟨hc s.inner, rfl⟩) steps (fun x s s' _ hx l => ⟨?_, rfl⟩) steps
    (fun _ h => h) _ _ h).1
  have := plain_writeChunks k [x] s
  rw [writeChunks_cons, show Write.writeStr x.1 x.2 s = (.ok (), s') from hx] at this
  have e : k.delivered s'.inner = k.delivered s.inner ++ _ := this.1
  rw [e, text_chunks]
  simp

end

/-- C98 for an attributed `String`: displayed anywhere, a clone shows all that was written since the first was made,
each character in its style. -/
theorem C98_string (steps : List (CloneStep Chunk)) (style : Style) (args : FormatterArgs) :
    ∃ s, CloneStep.follow writeChunk steps StyString.new = (.ok (), s) ∧
      ∃ log, writes (Display.fmt s) style args = (log, .ok ()) ∧
        flatten log = flatten (CloneStep.written steps) := by
  have key : ∀ (steps : List (CloneStep Chunk)) (s : StyString),
      CloneStep.follow writeChunk steps s = writeChunks (CloneStep.written steps) s := by
    intro steps
    induction steps with
    | nil => intro s; rfl
    | cons x rest ih =>
      intro s
      cases x with
      | clone => exact ih s
      | write x =>
        rw [CloneStep.written, writeChunks_cons, StyString.accepting.writeStr]
        exact ih _
  rw [key]
  exact C11_string_remembers _ style args

section
variable {T : Type} [StdIoWrite T] [StdClone T] (k : IoSink T)
  (hc : ∀ t : T, k.delivered (StdClone.clone t) = k.delivered t)
include hc

/-- C98 for `io::Ansi`. -/
theorem C98_io_ansi (fuel : Nat) (steps : List (CloneStep Arguments))
    (hp : ∀ x, CloneStep.write x ∈ steps → Propagates x.f) (t : T) (a b : IoAnsi fuel T)
    (h : CloneStep.follow IoWrite.writeFmt steps (IoAnsi.new t) = (.ok (), a))
    (hf : IoAnsi.finish a = (.ok (), b)) :
    ∃ out, k.delivered b.inner = k.delivered t ++ utf8 out ∧
      AnsiFinished stringSink StdString.new ((CloneStep.written steps).flatMap textOf) out := by
  refine ⟨_, ?_, (ansiFinished_exists stringSink stringSink_accepting StdString.new
    ((CloneStep.written steps).flatMap textOf)).2⟩
  have step : ∀ x (s s' : IoAnsi fuel T), CloneStep.write x ∈ steps → IoWrite.writeFmt x s = (.ok (), s') →
      ∀ l : List Arguments,
      k.delivered s.inner ++ renderWith ansiSwitchBytes String.utf8EncodeChar s.current
          (flatten ((x :: l).flatMap textOf)) =
        k.delivered s'.inner ++ renderWith ansiSwitchBytes String.utf8EncodeChar s'.current
          (flatten (l.flatMap textOf)) ∧
      lastStyle s.current (flatten ((x :: l).flatMap textOf)) = lastStyle s'.current (flatten (l.flatMap textOf)) := by
    intro x s s' hx hw l
    unfold IoWrite.writeFmt at hw
    rw [Write.writeFmt_propagates x (hp x hx)] at hw
    have hemit := (IoAnsi.renders (fuel := fuel) k).writeChunks (denote x).1 (ErrorTrap.new s)
    rcases hch : writeChunks (denote x).1 (ErrorTrap.new s) with ⟨rc, v⟩
    rw [hch] at hw hemit
    rcases hd : (denote x).2 with u | u | _ | _ <;> cases rc <;> simp [hd, afterChunks] at hw
    subst hw
    have e2 : k.delivered v.inner.inner = k.delivered s.inner ++ _ := hemit.1
    have e3 : v.inner.current = _ := hemit.2
    constructor
    · rw [List.flatMap_cons, flatten_append, renderWith_append, e2, e3, List.append_assoc]
      rfl
    · rw [List.flatMap_cons, flatten_append, lastStyle_append, e3]
      rfl
  obtain ⟨h1, h2⟩ := follow_emits (del := fun w : IoAnsi fuel T => k.delivered w.inner) (cur := IoAnsi.current)
    (out := fun c l => renderWith ansiSwitchBytes String.utf8EncodeChar c (flatten (l.flatMap textOf)))
    (fin := fun c l => lastStyle c (flatten (l.flatMap textOf)))
    (fun _ => rfl) (fun _ => rfl) (fun s => ⟨hc s.inner, rfl⟩) steps step steps
    (fun _ h => h) _ _ h
  have f := IoAnsi.finish_emits k a
  rw [hf] at f
  have f1 : k.delivered b.inner = k.delivered a.inner ++ _ := f.1
  rw [f1, h1, h2, List.append_assoc, render_bytes, ansiRender, utf8_append]
  rfl

/-- C98 for `io::Plain`. -/
theorem C98_io_plain (fuel : Nat) (steps : List (CloneStep Arguments))
    (hp : ∀ x, CloneStep.write x ∈ steps → Propagates x.f) (t : T) (a : IoPlain fuel T)
    (h : CloneStep.follow IoWrite.writeFmt steps (IoPlain.new t) = (.ok (), a)) :
    k.delivered (IoPlain.intoInner a) =
      k.delivered t ++ utf8 (((CloneStep.written steps).flatMap textOf).flatMap Prod.fst) := by
  refine (follow_emits (del := fun w : IoPlain fuel T => k.delivered w.inner) (cur := fun _ => ())
    (out := fun _ l => utf8 ((l.flatMap textOf).flatMap Prod.fst)) (fin := fun _ _ => ())
    (fun _ => rfl) (fun _ => rfl) (fun s => ⟨hc s.inner, rfl⟩) steps (fun x s s' hx hw l => ⟨?_, rfl⟩) steps
    (fun _ h => h) _ _ h).1
  unfold IoWrite.writeFmt at hw
  rw [Write.writeFmt_propagates x (hp x hx)] at hw
  have hemit := IoPlain.chunks_emits k (denote x).1 (ErrorTrap.new s)
  rcases hch : writeChunks (denote x).1 (ErrorTrap.new s) with ⟨rc, v⟩
  rw [hch] at hw hemit
  rcases hd : (denote x).2 with u | u | _ | _ <;> cases rc <;> simp [hd, afterChunks] at hw
  subst hw
  have e2 : k.delivered v.inner.inner = k.delivered s.inner ++ _ := hemit.1
  rw [e2, text_chunks, List.flatMap_cons, List.flatMap_append, utf8_append, List.append_assoc]
  rfl

end

/-- C98, defaults: a writer made by `Default` is a new one around the default stream; so are the other values. -/
theorem C98_default {T : Type} [StdDefault T] (fuel : Nat) :
    (StdDefault.default : Ansi T) = Ansi.new StdDefault.default ∧
    (StdDefault.default : Html T) = Html.new StdDefault.default ∧
    (StdDefault.default : Plain T) = Plain.new StdDefault.default ∧
    (StdDefault.default : IoAnsi fuel T) = IoAnsi.new StdDefault.default ∧
    (StdDefault.default : IoPlain fuel T) = IoPlain.new StdDefault.default ∧
    (StdDefault.default : StyString) = StyString.new ∧
    (StdDefault.default : Style) = Style.default := ⟨rfl, rfl, rfl, rfl, rfl, rfl, rfl⟩

/-- Non-vacuity: a writer is cloned between two red characters; the clone goes on in bold. -/
example :
    (let steps : List (CloneStep Chunk) := [.write (['a'], { Style.default with foreground := .Red }), .clone,
        .write (['b'], { Style.default with foreground := .Red }),
        .write (['c'], { Style.default with intensity := .Bold })]
     let x := CloneStep.follow writeChunk steps (StdDefault.default : Ansi StdString)
     x.1 = .ok () ∧ (Ansi.finish x.2).1 = .ok () ∧
       (Ansi.finish x.2).2.inner.chars = str "\x1b[31mab\x1b[39;1mc\x1b[0m" ∧
     let y := CloneStep.follow writeChunk steps (StdDefault.default : Html StdString)
     y.1 = .ok () ∧ (Html.finish y.2).2.inner.chars =
       str "<span style=color:red>ab</span><span style=font-weight:bolder>c</span>") := by decide +kernel

/-- A `Vec` that takes two bytes at a time; its clone has the same bytes. -/
instance : StdClone ScriptSink := ⟨fun t => ⟨t.script, t.got⟩⟩

/-- Non-vacuity for byte streams: a red `é`, a clone, a red `b`. -/
example :
    (let red : Char → Arguments := fun c =>
        ⟨.within ⟨fun s => { s with foreground := .Red }⟩ (.writeStr [c] .done) .done⟩
     let steps : List (CloneStep Arguments) := [.write (red 'é'), .clone, .write (red 'b')]
     let x := CloneStep.follow IoWrite.writeFmt steps (IoAnsi.new ⟨[.accept 2, .accept 2], []⟩ : IoAnsi 9 ScriptSink)
     x.1 = .ok () ∧ (IoAnsi.finish x.2).1 = .ok () ∧
       (IoAnsi.finish x.2).2.inner.got = utf8 (str "\x1b[31méb\x1b[0m")) ∧
    ∀ t : ScriptSink, scriptSink.delivered (StdClone.clone t) = scriptSink.delivered t :=
  ⟨by decide +kernel, fun _ => rfl⟩

end Stylish.Props
