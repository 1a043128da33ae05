import Verif.Model.StdWrite
/-
The arm that `std_write!` selects.
-/

set_option linter.unusedSimpArgs false

namespace Stylish

variable {f : FormatterArgs}

theorem OptPat.wild_opt {α : Type} [DecidableEq α] (o : Option α) : OptPat.wild.matchesOpt o = true := by
  cases o <;> rfl

theorem OptPat.wild_bool (b : Bool) : OptPat.wild.matchesBool b = true := by
  cases b <;> rfl

theorem find_map_arm (u : Arm → Arm) (c : Bool) (l : List Arm)
    (h : ∀ a ∈ l, (u a).matches f = (c && a.matches f)) :
    (l.map u).find? (fun a => a.matches f) =
      if c then (l.find? (fun a => a.matches f)).map u else none := by
  induction l with
  | nil => cases c <;> rfl
  | cons a l ih =>
    have ih := ih (fun b hb => h b (by simp [hb]))
    have ha := h a (by simp)
    simp only [List.map_cons, List.find?_cons, ha, ih]
    cases c <;> cases a.matches f <;> simp

/-- All arms still leave a field open. -/
def AllArms (P : Arm → Prop) (l : List Arm) : Prop := ∀ a ∈ l, P a

def alignUpd : Option Align → Arm → Arm
  | none, a => { a with align := .isNone }
  | some .Left, a => { a with align := .exact .Left, strings := "<" :: a.strings }
  | some .Center, a => { a with align := .exact .Center, strings := "^" :: a.strings }
  | some .Right, a => { a with align := .exact .Right, strings := ">" :: a.strings }

theorem armsAlign_find (l : List Arm) (h : AllArms (fun a => a.align = .wild) l) :
    (armsAlign l).find? (fun a => a.matches f) =
      (l.find? (fun a => a.matches f)).map (alignUpd f.align) := by
  unfold armsAlign
  simp only [List.find?_append]
  rw [find_map_arm _ (OptPat.isNone.matchesOpt f.align), find_map_arm _ ((OptPat.exact Align.Left).matchesOpt f.align),
    find_map_arm _ ((OptPat.exact Align.Center).matchesOpt f.align),
    find_map_arm _ ((OptPat.exact Align.Right).matchesOpt f.align)]
  · rcases f.align with _ | _ | _ | _ <;>
      simp [OptPat.matchesOpt] <;> rfl
  all_goals
    intro a ha
    simp only [Arm.matches, h a ha, OptPat.wild_opt, OptPat.wild_bool, Bool.true_and, Bool.and_true]
    ac_rfl

def signUpd : Option Sign → Arm → Arm
  | none, a => { a with sign := .isNone }
  | some .Plus, a => { a with sign := .exact .Plus, strings := "+" :: a.strings }
  | some .Minus, a => { a with sign := .exact .Minus, strings := "-" :: a.strings }

theorem armsSign_find (l : List Arm) (h : AllArms (fun a => a.sign = .wild) l) :
    (armsSign l).find? (fun a => a.matches f) =
      (l.find? (fun a => a.matches f)).map (signUpd f.sign) := by
  unfold armsSign
  simp only [List.find?_append]
  rw [find_map_arm _ (OptPat.isNone.matchesOpt f.sign), find_map_arm _ ((OptPat.exact Sign.Plus).matchesOpt f.sign),
    find_map_arm _ ((OptPat.exact Sign.Minus).matchesOpt f.sign)]
  · rcases f.sign with _ | _ | _ <;>
      simp [OptPat.matchesOpt] <;> rfl
  all_goals
    intro a ha
    simp only [Arm.matches, h a ha, OptPat.wild_opt, OptPat.wild_bool, Bool.true_and, Bool.and_true]
    ac_rfl

def alternateUpd : Bool → Arm → Arm
  | false, a => { a with alternate := .exact false }
  | true, a => { a with alternate := .exact true, strings := "#" :: a.strings }

theorem armsAlternate_find (l : List Arm) (h : AllArms (fun a => a.alternate = .wild) l) :
    (armsAlternate l).find? (fun a => a.matches f) =
      (l.find? (fun a => a.matches f)).map (alternateUpd f.alternate) := by
  unfold armsAlternate
  simp only [List.find?_append]
  rw [find_map_arm _ ((OptPat.exact false).matchesBool f.alternate),
    find_map_arm _ ((OptPat.exact true).matchesBool f.alternate)]
  · rcases f.alternate with _ | _ <;> simp [OptPat.matchesBool] <;> rfl
  all_goals
    intro a ha
    simp only [Arm.matches, h a ha, OptPat.wild_opt, OptPat.wild_bool, Bool.true_and, Bool.and_true]
    ac_rfl

def zeroUpd : Bool → Arm → Arm
  | false, a => { a with zero := .exact false }
  | true, a => { a with zero := .exact true, strings := "0" :: a.strings }

theorem armsZero_find (l : List Arm) (h : AllArms (fun a => a.zero = .wild) l) :
    (armsZero l).find? (fun a => a.matches f) =
      (l.find? (fun a => a.matches f)).map (zeroUpd f.zero) := by
  unfold armsZero
  simp only [List.find?_append]
  rw [find_map_arm _ ((OptPat.exact false).matchesBool f.zero),
    find_map_arm _ ((OptPat.exact true).matchesBool f.zero)]
  · rcases f.zero with _ | _ <;> simp [OptPat.matchesBool] <;> rfl
  all_goals
    intro a ha
    simp only [Arm.matches, h a ha, OptPat.wild_opt, OptPat.wild_bool, Bool.true_and, Bool.and_true]
    ac_rfl

def widthUpd : Option Nat → Arm → Arm
  | none, a => { a with width := .isNone }
  | some _, a => { a with width := .isSome, strings := "width$" :: a.strings, args := "width" :: a.args }

theorem armsWidth_find (l : List Arm) (h : AllArms (fun a => a.width = .wild) l) :
    (armsWidth l).find? (fun a => a.matches f) =
      (l.find? (fun a => a.matches f)).map (widthUpd f.width) := by
  unfold armsWidth
  simp only [List.find?_append]
  rw [find_map_arm _ (OptPat.isNone.matchesOpt f.width), find_map_arm _ (OptPat.isSome.matchesOpt f.width)]
  · rcases f.width with _ | _ <;> simp [OptPat.matchesOpt] <;> rfl
  all_goals
    intro a ha
    simp only [Arm.matches, h a ha, OptPat.wild_opt, OptPat.wild_bool, Bool.true_and, Bool.and_true]
    ac_rfl

def precisionUpd : Option Nat → Arm → Arm
  | none, a => { a with precision := .isNone }
  | some _, a => { a with precision := .isSome, strings := ".precision$" :: a.strings,
                          args := "precision" :: a.args }

theorem armsPrecision_find (l : List Arm) (h : AllArms (fun a => a.precision = .wild) l) :
    (armsPrecision l).find? (fun a => a.matches f) =
      (l.find? (fun a => a.matches f)).map (precisionUpd f.precision) := by
  unfold armsPrecision
  simp only [List.find?_append]
  rw [find_map_arm _ (OptPat.isNone.matchesOpt f.precision),
    find_map_arm _ (OptPat.isSome.matchesOpt f.precision)]
  · rcases f.precision with _ | _ <;> simp [OptPat.matchesOpt] <;> rfl
  all_goals
    intro a ha
    simp only [Arm.matches, h a ha, OptPat.wild_opt, OptPat.wild_bool, Bool.true_and, Bool.and_true]
    ac_rfl

def initArm : StdKind → Option DebugHex → Arm
  | .Other, _ => { debugHex := .wild, strings := [""], args := [] }
  | .Debug, none => { debugHex := .isNone, strings := ["?"], args := [] }
  | .Debug, some .Lower => { debugHex := .exact .Lower, strings := ["x?"], args := [] }
  | .Debug, some .Upper => { debugHex := .exact .Upper, strings := ["X?"], args := [] }

theorem armsInit_find (kind : StdKind) :
    (armsInit kind).find? (fun a => a.matches f) = some (initArm kind f.debugHex) := by
  rcases kind with _ | _ <;> rcases h : f.debugHex with _ | _ | _ <;>
    simp [armsInit, initArm, Arm.matches, OptPat.matchesOpt, OptPat.matchesBool, h]

/-- The selected arm. -/
theorem selectArm_eq (kind : StdKind) (f : FormatterArgs) :
    selectArm kind f = some (alignUpd f.align <| signUpd f.sign <| alternateUpd f.alternate <|
      zeroUpd f.zero <| widthUpd f.width <| precisionUpd f.precision <| initArm kind f.debugHex) := by
  have hinit : AllArms (fun a => a.align = .wild ∧ a.sign = .wild ∧ a.alternate = .wild ∧
      a.zero = .wild ∧ a.width = .wild ∧ a.precision = .wild) (armsInit kind) := by
    cases kind <;> simp [AllArms, armsInit]
  have hp : AllArms (fun a => a.align = .wild ∧ a.sign = .wild ∧ a.alternate = .wild ∧
      a.zero = .wild ∧ a.width = .wild) (armsPrecision (armsInit kind)) := by
    intro a ha
    simp only [armsPrecision, List.mem_append, List.mem_map] at ha
    rcases ha with ⟨b, hb, rfl⟩ | ⟨b, hb, rfl⟩ <;> exact ⟨(hinit b hb).1, (hinit b hb).2.1,
      (hinit b hb).2.2.1, (hinit b hb).2.2.2.1, (hinit b hb).2.2.2.2.1⟩
  have hw : AllArms (fun a => a.align = .wild ∧ a.sign = .wild ∧ a.alternate = .wild ∧
      a.zero = .wild) (armsWidth (armsPrecision (armsInit kind))) := by
    intro a ha
    simp only [armsWidth, List.mem_append, List.mem_map] at ha
    rcases ha with ⟨b, hb, rfl⟩ | ⟨b, hb, rfl⟩ <;> exact ⟨(hp b hb).1, (hp b hb).2.1,
      (hp b hb).2.2.1, (hp b hb).2.2.2.1⟩
  have hz : AllArms (fun a => a.align = .wild ∧ a.sign = .wild ∧ a.alternate = .wild)
      (armsZero (armsWidth (armsPrecision (armsInit kind)))) := by
    intro a ha
    simp only [armsZero, List.mem_append, List.mem_map] at ha
    rcases ha with ⟨b, hb, rfl⟩ | ⟨b, hb, rfl⟩ <;> exact ⟨(hw b hb).1, (hw b hb).2.1, (hw b hb).2.2.1⟩
  have ha : AllArms (fun a => a.align = .wild ∧ a.sign = .wild)
      (armsAlternate (armsZero (armsWidth (armsPrecision (armsInit kind))))) := by
    intro a ha
    simp only [armsAlternate, List.mem_append, List.mem_map] at ha
    rcases ha with ⟨b, hb, rfl⟩ | ⟨b, hb, rfl⟩ <;> exact ⟨(hz b hb).1, (hz b hb).2.1⟩
  have hs : AllArms (fun a => a.align = .wild)
      (armsSign (armsAlternate (armsZero (armsWidth (armsPrecision (armsInit kind)))))) := by
    intro a ha'
    simp only [armsSign, List.mem_append, List.mem_map] at ha'
    rcases ha' with (⟨b, hb, rfl⟩ | ⟨b, hb, rfl⟩) | ⟨b, hb, rfl⟩ <;> exact (ha b hb).1
  unfold selectArm arms
  rw [armsAlign_find _ hs, armsSign_find _ (fun a h => (ha a h).2),
    armsAlternate_find _ (fun a h => (hz a h).2.2), armsZero_find _ (fun a h => (hw a h).2.2.2),
    armsWidth_find _ (fun a h => (hp a h).2.2.2.2), armsPrecision_find _ (fun a h => (hinit a h).2.2.2.2.2),
    armsInit_find]
  rfl

/-! ### Reading the arm's format string -/

def alignStr : Option Align → Str
  | none => []
  | some .Left => ['<']
  | some .Center => ['^']
  | some .Right => ['>']

def signStr : Option Sign → Str
  | none => []
  | some .Plus => ['+']
  | some .Minus => ['-']

def alternateStr : Bool → Str
  | false => []
  | true => ['#']

theorem readStdAlign_print (al : Option Align) (rest : Str)
    (h : ∀ c ∈ rest, stdAlign c = none) :
    readStdAlign (alignStr al ++ rest) = ((' ', al), rest) := by
  rcases rest with _ | ⟨c, _ | ⟨d, rest⟩⟩
  · rcases al with _ | _ | _ | _ <;> rfl
  · have hc := h c (by simp)
    rcases al with _ | _ | _ | _ <;> simp [alignStr, readStdAlign, hc, show stdAlign '<' = some .Left from rfl,
        show stdAlign '^' = some .Center from rfl, show stdAlign '>' = some .Right from rfl]
  · have hc := h c (by simp)
    have hd := h d (by simp)
    rcases al with _ | _ | _ | _ <;> simp [alignStr, readStdAlign, hc, hd, show stdAlign '<' = some .Left from rfl,
        show stdAlign '^' = some .Center from rfl, show stdAlign '>' = some .Right from rfl]

theorem readStdSign_print (sg : Option Sign) (rest : Str)
    (h : ∀ c ∈ rest, c ≠ '+' ∧ c ≠ '-') :
    readStdSign (signStr sg ++ rest) = (sg, rest) := by
  rcases sg with _ | _ | _
  · rcases rest with _ | ⟨c, rest⟩
    · rfl
    · have hc := h c (by simp)
      simp [signStr, readStdSign, hc]
  · rfl
  · rfl

theorem readStdAlternate_print (b : Bool) (rest : Str) (h : ∀ c ∈ rest, c ≠ '#') :
    readStdAlternate (alternateStr b ++ rest) = (b, rest) := by
  rcases b with _ | _
  · rcases rest with _ | ⟨c, rest⟩
    · rfl
    · have hc := h c (by simp)
      simp [alternateStr, readStdAlternate, hc]
  · rfl

theorem Arm.spec_align (al : Option Align) (a : Arm) : (alignUpd al a).spec = alignStr al ++ a.spec := by
  rcases al with _ | _ | _ | _ <;> rfl

theorem Arm.spec_sign (sg : Option Sign) (a : Arm) : (signUpd sg a).spec = signStr sg ++ a.spec := by
  rcases sg with _ | _ | _ <;> rfl

theorem Arm.spec_alternate (b : Bool) (a : Arm) :
    (alternateUpd b a).spec = alternateStr b ++ a.spec := by
  rcases b with _ | _ <;> rfl

theorem Arm.named_upd (al : Option Align) (sg : Option Sign) (b : Bool) (a : Arm) (f : FormatterArgs) :
    (alignUpd al (signUpd sg (alternateUpd b a))).named f = a.named f := by
  rcases al with _ | _ | _ | _ <;> rcases sg with _ | _ | _ <;> rcases b with _ | _ <;> rfl

/-- The part of the arm from the `0` flag on. -/
def tailArm (kind : StdKind) (f : FormatterArgs) : Arm :=
  zeroUpd f.zero <| widthUpd f.width <| precisionUpd f.precision <| initArm kind f.debugHex

theorem tailArm_chars (kind : StdKind) (f : FormatterArgs) :
    ∀ c ∈ (tailArm kind f).spec, stdAlign c = none ∧ c ≠ '+' ∧ c ≠ '-' ∧ c ≠ '#' := by
  rcases f with ⟨al, sg, alt, z, w, p, dh⟩
  rcases kind with _ | _ <;> rcases z with _ | _ <;> rcases w with _ | w <;> rcases p with _ | p <;>
    rcases dh with _ | _ | _ <;>
    simp only [tailArm, zeroUpd, widthUpd, precisionUpd, initArm, Arm.spec] <;> decide +kernel

/-- Reading the options from the `0` flag on. -/
def readTail (named : List (Str × Nat)) (s : Str) :
    Option (Bool × Option Nat × Option Nat × Bool × Option DebugHex) :=
  let (zero, s) := readStdZero s
  let (width, s) := readStdNamedCount named s
  let (precision, s) := readStdPrecision named s
  match readStdType s with
  | some (debug, debugHex) => some (zero, width, precision, debug, debugHex)
  | none => none

theorem readStdSpec_print (named : List (Str × Nat)) (al : Option Align) (sg : Option Sign) (b : Bool)
    (rest : Str) (h : ∀ c ∈ rest, stdAlign c = none ∧ c ≠ '+' ∧ c ≠ '-' ∧ c ≠ '#') :
    readStdSpec named (alignStr al ++ (signStr sg ++ (alternateStr b ++ rest))) =
      (readTail named rest).map (fun t =>
        ⟨' ', al, sg, b, t.1, t.2.1, t.2.2.1, t.2.2.2.2, t.2.2.2.1⟩) := by
  have h1 : ∀ c ∈ signStr sg ++ (alternateStr b ++ rest), stdAlign c = none := by
    intro c hc
    simp only [List.mem_append] at hc
    rcases hc with hc | hc | hc
    · rcases sg with _ | _ | _ <;> simp [signStr] at hc <;> subst hc <;> rfl
    · rcases b with _ | _ <;> simp [alternateStr] at hc; subst hc; rfl
    · exact (h c hc).1
  have h2 : ∀ c ∈ alternateStr b ++ rest, c ≠ '+' ∧ c ≠ '-' := by
    intro c hc
    simp only [List.mem_append] at hc
    rcases hc with hc | hc
    · rcases b with _ | _ <;> simp [alternateStr] at hc; subst hc; decide
    · exact ⟨(h c hc).2.1, (h c hc).2.2.1⟩
  simp only [readStdSpec, readStdAlign_print _ _ h1, readStdSign_print _ _ h2,
    readStdAlternate_print _ _ (fun c hc => (h c hc).2.2.2), readTail]
  cases readStdType (readStdPrecision named (readStdNamedCount named (readStdZero rest).2).2).2 <;> rfl

theorem readTail_other (f : FormatterArgs) :
    readTail ((tailArm .Other f).named f) (tailArm .Other f).spec =
      some (f.zero, f.width, f.precision, false, none) := by
  rcases f with ⟨al, sg, alt, z, w, p, dh⟩
  rcases z with _ | _ <;> rcases w with _ | w <;> rcases p with _ | p <;> rfl

theorem readTail_debug (f : FormatterArgs) :
    readTail ((tailArm .Debug f).named f) (tailArm .Debug f).spec =
      some (f.zero, f.width, f.precision, true, f.debugHex) := by
  rcases f with ⟨al, sg, alt, z, w, p, dh⟩
  rcases z with _ | _ <;> rcases w with _ | w <;> rcases p with _ | p <;> rcases dh with _ | _ | _ <;> rfl

theorem stdOptsOf_tail (kind : StdKind) (f : FormatterArgs) :
    stdOptsOf kind f = (readTail ((tailArm kind f).named f) (tailArm kind f).spec).map (fun t =>
        ⟨' ', f.align, f.sign, f.alternate, t.1, t.2.1, t.2.2.1, t.2.2.2.2, t.2.2.2.1⟩) := by
  have e : stdOptsOf kind f = readStdSpec
      ((alignUpd f.align (signUpd f.sign (alternateUpd f.alternate (tailArm kind f)))).named f)
      ((alignUpd f.align (signUpd f.sign (alternateUpd f.alternate (tailArm kind f)))).spec) := by
    rw [stdOptsOf, selectArm_eq]; rfl
  rw [e, Arm.named_upd, Arm.spec_align, Arm.spec_sign, Arm.spec_alternate,
    readStdSpec_print _ _ _ _ _ (tailArm_chars kind f)]

end Stylish
