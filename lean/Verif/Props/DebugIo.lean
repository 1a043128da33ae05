import Verif.Model.DebugIo
import Verif.Spec.DebugIo
import Verif.Props.DebugMore
import Verif.Props.Io
import Verif.Props.Style
/-
`{:?}` of the writers of bytes and of changes of a style: C119.
-/

namespace Stylish.Props

open Spec Spec.Debug DebugText

/-! ## C119 -/

namespace DebugIo

variable (shown : Char → Bool)

theorem plain_bytes (l : Bytes) (before : Str) (hb : ∀ c ∈ before, isWord c = false) (c : Char) (s : Str) (hc : isWord c = false) :
    wordsFrom [] ((debugBytes l).plain shown before ++ c :: s) = byteWords l ++ wordsFrom [] (c :: s) := by
  induction l generalizing before with
  | nil => rfl
  | cons x l ih =>
    simp only [debugBytes, DebugNodes.plain, List.append_assoc, byteWords, List.map_cons, DebugNode.plain]
    rw [words_gaps _ _ hb, plain_words (.nat x.toNat) trivial _ ?_, ih _ (by decide +kernel)]
    · rfl
    · cases l with
      | nil => exact hc
      | cons y l => show isWord ',' = false; decide

theorem pretty_bytes (l : Bytes) (s : Str) :
    wordsFrom [] ((debugBytes l).pretty shown ++ s) = byteWords l ++ wordsFrom [] s := by
  induction l with
  | nil => rfl
  | cons x l ih =>
    simp only [debugBytes, DebugNodes.pretty, List.append_assoc, byteWords, List.map_cons, DebugNode.pretty]
    rw [words_pad _ _ _ _ (fun _ => rfl), List.append_assoc,
      pretty_words (.nat x.toNat) trivial _ (by show isWord ',' = false; decide), words_gaps _ _ (by decide +kernel), ih]
    rfl

/-- A struct whose first field is a list of bytes. -/
theorem words_struct (alternate : Bool) (name field : Str) (hn : IsWord name) (hf : IsWord field) (b : Bytes)
    (more : DebugNodeFields) (w : List Str)
    (h1 : wordsFrom [] (more.plain shown (str ", ") ++ str " }") = w)
    (h2 : wordsFrom [] (more.pretty shown ++ str "}") = w) :
    wordsFrom [] ((DebugNode.struct name (.cons field (.list (debugBytes b)) more)).shownAs shown alternate) =
      name :: field :: (byteWords b ++ w) := by
  cases alternate with
  | false =>
    simp only [DebugNode.shownAs, DebugNode.plain, DebugNodeFields.plain, Bool.false_eq_true, if_false, List.append_assoc]
    rw [words_leaf _ _ hn (by show isWord ' ' = false; decide), words_gaps _ _ (by decide +kernel),
      words_leaf _ _ hf (by show isWord ':' = false; decide), words_gaps _ _ (by decide +kernel)]
    rw [words_gaps _ _ (by decide +kernel)]
    have e : str "]" ++ (more.plain shown (str ", ") ++ str " }") = ']' :: (more.plain shown (str ", ") ++ str " }") := by
      have : str "]" = [']'] := by decide +kernel
      rw [this]; rfl
    rw [e, plain_bytes shown b [] (by simp) _ _ (by decide), ← e, words_gaps _ _ (by decide +kernel), h1]
  | true =>
    have e1 : (DebugNode.struct name (.cons field (.list (debugBytes b)) more)).shownAs shown true =
        name ++ (str " {\n" ++ (padLines true (field ++ (str ": " ++ ((DebugNode.list (debugBytes b)).pretty shown ++ str ",\n"))) ++
          (more.pretty shown ++ str "}"))) := by
      have e0 : (DebugNode.struct name (.cons field (.list (debugBytes b)) more)).shownAs shown true =
        name ++ str " {\n" ++ (padLines true (field ++ str ": " ++ (DebugNode.list (debugBytes b)).pretty shown ++ str ",\n") ++
          more.pretty shown) ++ str "}" := rfl
      rw [e0]
      generalize (DebugNode.list (debugBytes b)).pretty shown = l
      simp only [List.append_assoc]
    rw [e1, words_leaf _ _ hn (by show isWord ' ' = false; decide), words_gaps _ _ (by decide +kernel),
      words_pad _ _ _ _ (fun _ => rfl), List.append_assoc, words_leaf _ _ hf (by show isWord ':' = false; decide),
      List.append_assoc, words_gaps _ _ (by decide +kernel), List.append_assoc]
    cases b with
    | nil =>
      have e2 : ∀ c ∈ str "[]", isWord c = false := by decide +kernel
      simp only [debugBytes, DebugNode.pretty]
      rw [words_gaps _ _ e2, words_gaps _ _ (by decide +kernel), h2]
      rfl
    | cons x b =>
      have e3 : (DebugNode.list (debugBytes (x :: b))).pretty shown =
        str "[\n" ++ (debugBytes (x :: b)).pretty shown ++ str "]" := rfl
      rw [e3]
      simp only [List.append_assoc]
      rw [words_gaps _ _ (by decide +kernel), pretty_bytes, words_gaps _ _ (by decide +kernel), words_gaps _ _ (by decide +kernel), h2]

theorem words_current (st : Style) :
    let m : DebugNodeFields := .cons (str "current") (.val st.debug) .nil
    wordsFrom [] (m.plain shown (str ", ") ++ str " }") = str "current" :: styleWords st ∧
    wordsFrom [] (m.pretty shown ++ str "}") = str "current" :: styleWords st := by
  constructor
  · simpa using DebugMore.words_writer shown false st
  · have := DebugMore.words_writer shown true st
    simp only [if_true] at this
    rwa [words_gaps _ _ (by decide +kernel)] at this

theorem bytes_inj (l m : Bytes) (h : byteWords l = byteWords m) : l = m := by
  induction l generalizing m with
  | nil => cases m with
    | nil => rfl
    | cons y m => exact absurd h (by simp [byteWords])
  | cons x l ih =>
    cases m with
    | nil => exact absurd h (by simp [byteWords])
    | cons y m =>
      obtain ⟨h1, h2⟩ := List.cons.inj h
      have h3 := congrArg (Nat.ofDigitChars 10 · 0) h1
      simp only [Nat.ofDigitChars_ten_toDigits] at h3
      rw [UInt8.toNat_inj.1 h3, ih m h2]

theorem named_diff (d : StyleDiff) : Named d.debug :=
  ⟨isWord_lit _, isWord_lit _, named_opt _ named_color _, isWord_lit _, named_opt _ named_color _, isWord_lit _,
    named_opt _ named_intensity _, trivial⟩

theorem valWords_color (c : Color) : valWords c.debug = [colorName c] := by cases c <;> rfl
theorem valWords_intensity (i : Intensity) : valWords i.debug = [intensityName i] := by cases i <;> rfl

theorem valWords_opt {A : Type} (f : A → DebugVal) (n : A → Str) (h : ∀ a, valWords (f a) = [n a]) (o : Option A) :
    valWords (optDebug f o) = optionWords n o := by
  cases o with
  | none => rfl
  | some a => simp [optDebug, valWords, optionWords, h]

theorem words_val (alternate : Bool) (v : DebugVal) (h : Named v) : wordsFrom [] (v.shownAs alternate) = valWords v := by
  cases alternate with
  | false =>
    have := plain_words v h [] trivial
    simpa [DebugVal.shownAs, wordsFrom, flush] using this
  | true =>
    have := pretty_words v h [] trivial
    simpa [DebugVal.shownAs, wordsFrom, flush] using this

theorem valWords_diff (d : StyleDiff) : valWords d.debug = diffWords d := by
  simp only [StyleDiff.debug, valWords, fieldWords, valWords_opt _ _ valWords_color, valWords_opt _ _ valWords_intensity, diffWords,
    List.append_nil, List.append_assoc, List.cons_append, List.nil_append]

end DebugIo

open DebugIo

/-- C119: what `{:?}` and `{:#?}` show of `io::Ansi` on a `Vec<u8>`: the bytes written as numbers, in order, and the style the
last text was written in. -/
theorem C119_ansi (shown : Char → Bool) (alternate : Bool) {fuel : Nat} (a : IoAnsi fuel ByteVector) :
    wordsFrom [] (a.debug.shownAs shown alternate) = ansiWords a.inner.bytes a.current := by
  have := words_struct shown alternate (str "Ansi") (str "inner") (isWord_lit _) (isWord_lit _) a.inner.bytes _ _
    (words_current shown a.current).1 (words_current shown a.current).2
  refine Eq.trans this ?_
  simp [ansiWords]

/-- C119: and of `io::Plain`: the bytes. -/
theorem C119_plain (shown : Char → Bool) (alternate : Bool) {fuel : Nat} (a : IoPlain fuel ByteVector) :
    wordsFrom [] (a.debug.shownAs shown alternate) = plainWords a.inner.bytes := by
  have := words_struct shown alternate (str "Plain") (str "inner") (isWord_lit _) (isWord_lit _) a.inner.bytes .nil []
    (by simp only [DebugNodeFields.plain]; decide +kernel) (by simp only [DebugNodeFields.pretty]; decide +kernel)
  refine Eq.trans this ?_
  simp [plainWords]

/-- C119: writers on a `Vec<u8>` are shown the same if and only if they are the same. -/
theorem C119_writers_tell (shown : Char → Bool) (alternate : Bool) {fuel : Nat} :
    (∀ a b : IoAnsi fuel ByteVector, a.debug.shownAs shown alternate = b.debug.shownAs shown alternate ↔ a = b) ∧
    (∀ a b : IoPlain fuel ByteVector, a.debug.shownAs shown alternate = b.debug.shownAs shown alternate ↔ a = b) := by
  refine ⟨fun a b => ⟨fun e => ?_, fun e => by rw [e]⟩, fun a b => ⟨fun e => ?_, fun e => by rw [e]⟩⟩
  · have h := congrArg (wordsFrom []) e
    rw [C119_ansi, C119_ansi] at h
    simp only [ansiWords, List.append_assoc] at h
    obtain ⟨h1, h2⟩ := List.append_inj' (List.append_cancel_left h) (by simp [styleWords])
    have h3 := bytes_inj _ _ h1
    have h4 := DebugMore.style_words_inj (List.append_cancel_left h2)
    obtain ⟨⟨x⟩, st⟩ := a
    obtain ⟨⟨y⟩, st'⟩ := b
    simp_all
  · have h := congrArg (wordsFrom []) e
    rw [C119_plain, C119_plain] at h
    have h3 := bytes_inj _ _ (List.append_cancel_left h)
    obtain ⟨⟨x⟩⟩ := a
    obtain ⟨⟨y⟩⟩ := b
    simp_all

/-- A `Vec<u8>` keeps what it is given. -/
def DebugIo.vectorSink : IoSink ByteVector where
  delivered := ByteVector.bytes
  contract :=
    { ok := by rintro b w w' n ⟨⟩; simp
      err := by rintro b w w' e ⟨⟩
      other := by rintro b w w' r ⟨⟩ (h | h) <;> cases h }
  all :=
    { ok := by rintro fuel b w w' ⟨⟩; rfl
      err := by rintro fuel b w w' e ⟨⟩
      other := by rintro fuel b w w' r ⟨⟩ (h | h) <;> cases h }

/-- C119: so after a `write!` that succeeded the bytes of what `Ansi` on a `String` has received then are shown, and its style. -/
theorem C119_written (shown : Char → Bool) (alternate : Bool) (args : Arguments) (hp : Propagates args.f) {fuel : Nat}
    (a : IoAnsi fuel ByteVector) (h : IoWrite.writeFmt args (IoAnsi.new ⟨[]⟩) = (.ok (), a)) :
    ∃ b : Ansi StdString, Ansi.writeFmt args (Ansi.new StdString.new) = (.ok (), b) ∧
      wordsFrom [] (a.debug.shownAs shown alternate) = ansiWords (utf8 b.inner.chars) b.current := by
  obtain ⟨b, h1, h2, h3⟩ := C26_before_finish vectorSink args hp ⟨[]⟩ fuel a h
  refine ⟨b, h1, ?_⟩
  have h3 : a.inner.bytes = utf8 b.inner.chars := h3
  rw [C119_ansi, h3, h2]

/-- C119: the changes of a style are shown attribute by attribute. -/
theorem C119_diff (alternate : Bool) (d : StyleDiff) : wordsFrom [] (d.debug.shownAs alternate) = diffWords d := by
  rw [words_val alternate _ (named_diff d), valWords_diff]

/-- C119: two of them are shown the same if and only if they are the same; `Foreground` and `Background` likewise, and these are
never shown the same as each other. -/
theorem C119_diff_tells (alternate : Bool) :
    (∀ d e : StyleDiff, d.debug.shownAs alternate = e.debug.shownAs alternate ↔ d = e) ∧
    (∀ x y : Foreground, x.debug.shownAs alternate = y.debug.shownAs alternate ↔ x = y) ∧
    (∀ x y : Background, x.debug.shownAs alternate = y.debug.shownAs alternate ↔ x = y) ∧
    (∀ (x : Foreground) (y : Background), x.debug.shownAs alternate ≠ y.debug.shownAs alternate) := by
  have nf : ∀ x : Foreground, Named x.debug := fun x => ⟨isWord_lit _, named_color _⟩
  have nb : ∀ x : Background, Named x.debug := fun x => ⟨isWord_lit _, named_color _⟩
  refine ⟨fun d e => ⟨fun h => ?_, fun h => by rw [h]⟩, fun d e => ⟨fun h => ?_, fun h => by rw [h]⟩,
    fun d e => ⟨fun h => ?_, fun h => by rw [h]⟩, fun x y h => ?_⟩
  · have h := congrArg (wordsFrom []) h
    rw [words_val alternate _ (named_diff d), words_val alternate _ (named_diff e)] at h
    simp only [StyleDiff.debug, valWords, fieldWords] at h
    obtain ⟨h1, h⟩ := opt_inj one_color (List.cons.inj (List.cons.inj h).2).2
    obtain ⟨h2, h⟩ := opt_inj one_color (List.cons.inj h).2
    obtain ⟨h3, h⟩ := opt_inj one_intensity (List.cons.inj h).2
    cases d; cases e
    simp_all
  · have h := congrArg (wordsFrom []) h
    rw [words_val alternate _ (nf d), words_val alternate _ (nf e)] at h
    obtain ⟨h1, -⟩ := one_inj (r := []) (r' := []) one_color (by simpa using (List.cons.inj h).2)
    cases d; cases e
    simp_all
  · have h := congrArg (wordsFrom []) h
    rw [words_val alternate _ (nb d), words_val alternate _ (nb e)] at h
    obtain ⟨h1, -⟩ := one_inj (r := []) (r' := []) one_color (by simpa using (List.cons.inj h).2)
    cases d; cases e
    simp_all
  · have h := congrArg (wordsFrom []) h
    rw [words_val alternate _ (nf x), words_val alternate _ (nb y)] at h
    exact absurd (List.cons.inj h).1 (by decide +kernel)

/-- C119: so of what leads from one style to two others the same is shown if and only if these are the same. -/
theorem C119_diff_from (alternate : Bool) (s t original : Style) :
    (s.diffFrom original).debug.shownAs alternate = (t.diffFrom original).debug.shownAs alternate ↔ s = t := by
  rw [(C119_diff_tells alternate).1]
  refine ⟨fun h => ?_, fun h => by rw [h]⟩
  rw [← C01_diff_replays original s, h, C01_diff_replays]

theorem DebugIo.bytes_line (shown : Char → Bool) (l : Bytes) (before : Str) (hb : '\n' ∉ before) :
    '\n' ∉ (debugBytes l).plain shown before := by
  induction l generalizing before with
  | nil => simp [debugBytes, DebugNodes.plain]
  | cons x l ih =>
    have h2 := plain_line (.nat x.toNat) trivial
    have h4 := ih (str ", ") (by decide +kernel)
    simp only [debugBytes, DebugNodes.plain, DebugNode.plain, List.mem_append, not_or]
    exact ⟨⟨hb, h2⟩, h4⟩

/-- C119: `{:?}` is one line; `{:#?}` of a change of a style has a line for every field. -/
theorem C119_lines (shown : Char → Bool) :
    (∀ (fuel : Nat) (a : IoAnsi fuel ByteVector), '\n' ∉ a.debug.shownAs shown false) ∧
    (∀ (fuel : Nat) (a : IoPlain fuel ByteVector), '\n' ∉ a.debug.shownAs shown false) ∧
    (∀ d : StyleDiff, '\n' ∉ d.debug.shownAs false ∧ broken '\n' (d.debug.shownAs true) ∧ indented (d.debug.shownAs true) ∧
      bare (d.debug.shownAs true) = bare (d.debug.shownAs false)) := by
  refine ⟨fun fuel a => ?_, fun fuel a => ?_, fun d => ⟨plain_line d.debug (named_diff d), ?_, ?_, ?_⟩⟩
  · simp only [IoAnsi.debug, DebugNode.shownAs, DebugNode.plain, DebugNodeFields.plain, Bool.false_eq_true, if_false,
      List.mem_append, not_or]
    have := DebugIo.bytes_line shown a.inner.bytes [] (by simp)
    have := plain_line a.current.debug (named_style _)
    simp_all (decide := true)
  · simp only [IoPlain.debug, DebugNode.shownAs, DebugNode.plain, DebugNodeFields.plain, Bool.false_eq_true, if_false,
      List.mem_append, not_or]
    have := DebugIo.bytes_line shown a.inner.bytes [] (by simp)
    simp_all (decide := true)
  · exact (broken_pretty d.debug (named_diff d) '\n' (by decide)).1
  · exact run_pretty d.debug (named_diff d) _ (.inr ⟨rfl, rfl⟩)
  · exact bare_pretty d.debug

/-! ### Samples -/

/-- A `write!` to `io::Ansi` on a `Vec<u8>`. -/
def debugIoArgs : Arguments := ⟨.within ⟨fun s => { s with foreground := .Red }⟩ (.writeStr ['é'] .done) .done⟩

example : (let a := (IoWrite.writeFmt debugIoArgs (IoAnsi.new ⟨[]⟩ : IoAnsi 1 ByteVector))
    a.1 = .ok () ∧ a.2.debug.shownAs (fun _ => true) false =
      str "Ansi { inner: [27, 91, 51, 49, 109, 195, 169], current: Style { foreground: Red, background: Default, intensity: Normal } }") := by
  decide +kernel

example : Propagates debugIoArgs.f := by
  exact ⟨⟨rfl, trivial⟩, rfl, trivial⟩

example : (IoWrite.writeFmt debugIoArgs (IoPlain.new ⟨[]⟩ : IoPlain 1 ByteVector)).2.debug.shownAs (fun _ => true) true =
      str "Plain {\n    inner: [\n        195,\n        169,\n    ],\n}" := by
  decide +kernel

example : ((⟨.Red, .Default, .Bold⟩ : Style).diffFrom ⟨.Default, .Default, .Normal⟩).debug.shownAs false =
      str "StyleDiff { foreground: Some(Red), background: None, intensity: Some(Bold) }" ∧
    (⟨.BrightBlue⟩ : Background).debug.shownAs true = str "Background(\n    BrightBlue,\n)" := by
  decide +kernel

end Stylish.Props
