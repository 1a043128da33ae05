import Verif.Model.Tokens
import Verif.Model.Front
import Verif.Props.NoPanic
import Verif.Spec.Names
/-
The generated code, evaluated, does what the expansion of Model/Expand.lean does.
-/

namespace Stylish.Tokens

open Format Rust Spec Props

variable {Y St : Type}

/-! ### Looking up paths -/

theorem lookup_at {A B : Type} [BEq A] [LawfulBEq A] (l : List (A × B)) (a : A) (i : Nat)
    (h : (l.map Prod.fst).findIdx? (fun x => a == x) = some i) : l.lookup a = (l[i]?).map Prod.snd := by
  induction l generalizing i with
  | nil => simp at h
  | cons p l ih =>
    rw [List.lookup_cons]
    simp only [List.map_cons, List.findIdx?_cons] at h
    by_cases hp : (a == p.1) = true
    · rw [if_pos hp] at h
      obtain rfl := Option.some.inj h
      simp [hp]
    · rw [if_neg hp] at h
      rcases h1 : (l.map Prod.fst).findIdx? (fun x => a == x) with _ | j
      · rw [h1] at h; simp at h
      · rw [h1] at h
        simp only [Option.map_some, Option.some.injEq] at h
        subst h
        simp only [hp]
        rw [ih j h1]
        rfl

/-- The paths of the unit variants. -/
def unitPaths : List (List Str) := unitVariants.map Prod.fst
/-- The paths of the functions. -/
def functionPaths : List (List Str) := functions.map Prod.fst

theorem exportValue_at (p : List Str) (i : Nat) (v : Val) (he : exported.contains (p.headD []) = true)
    (h : unitPaths.findIdx? (fun x => p == x) = some i) (hv : (unitVariants[i]?).map Prod.snd = some v) :
    exportValue p = some v := by
  unfold exportValue
  rw [if_pos he, lookup_at _ _ i h, hv]

theorem callExport_at (sc : Scope) (p : List Str) (i : Nat) (f : List Val → Option Val) (vs : List Val)
    (he : exported.contains (p.headD []) = true)
    (hd : ¬ p.getLastD [] = str "default")
    (h : functionPaths.findIdx? (fun x => p == x) = some i) (hf : (functions[i]?).map Prod.snd = some f) :
    callExport sc p vs = f vs := by
  unfold callExport
  rw [if_pos ⟨he, fun h => absurd h hd⟩, lookup_at _ _ i h, hf]
  rfl

/-! ### Compile errors -/

/-- Both fail with the same error, or both succeed, with related results. -/
def Agree {A B : Type} (P : A → B → Prop) : Compile A → Compile B → Prop
  | .ok a, .ok b => P a b
  | .error e, .error e' => e = e'
  | _, _ => False

theorem Agree.bind {A B A' B' : Type} {P : A → B → Prop} {Q : A' → B' → Prop} {x : Compile A} {y : Compile B}
    {f : A → Compile A'} {g : B → Compile B'} (h : Agree P x y) (hf : ∀ a b, P a b → Agree Q (f a) (g b)) :
    Agree Q (x >>= f) (y >>= g) := by
  cases x <;> cases y
  · exact h
  · exact h.elim
  · exact h.elim
  · exact hf _ _ h

/-- The code evaluates to the value, wherever it is. -/
def Means (t : RExpr Y) (v : Val) : Prop :=
  ∀ {St : Type} (u : UserExprs Y St) (sc : Scope) (st : St), eval u sc t st = some (v, st)

theorem means_path (p : List String) (i : Nat) (v : Val) (he : exported.contains ((p.map str).headD []) = true)
    (h : unitPaths.findIdx? (fun x => p.map str == x) = some i) (hv : (unitVariants[i]?).map Prod.snd = some v) :
    Means (Y := Y) (path p) v := by
  intro St u sc st
  unfold path eval
  rw [exportValue_at _ i v he h hv]
  rfl

theorem agree_color (c : Color) : Agree (fun (t : RExpr Y) c => Means t (.color c)) (color c) (colorTokens c) := by
  cases c
  case Black => exact means_path _ 0 _ (by decide +kernel) (by decide +kernel) rfl
  case Red => exact means_path _ 1 _ (by decide +kernel) (by decide +kernel) rfl
  case Green => exact means_path _ 2 _ (by decide +kernel) (by decide +kernel) rfl
  case Yellow => exact means_path _ 3 _ (by decide +kernel) (by decide +kernel) rfl
  case Blue => exact means_path _ 4 _ (by decide +kernel) (by decide +kernel) rfl
  case Magenta => exact means_path _ 5 _ (by decide +kernel) (by decide +kernel) rfl
  case Cyan => exact means_path _ 6 _ (by decide +kernel) (by decide +kernel) rfl
  case White => exact means_path _ 7 _ (by decide +kernel) (by decide +kernel) rfl
  case Default => exact means_path _ 16 _ (by decide +kernel) (by decide +kernel) rfl
  all_goals rfl

theorem agree_intensity (i : Intensity) :
    Agree (fun (t : RExpr Y) i => Means t (.intensity i)) (intensity i) (intensityTokens i) := by
  cases i
  case Normal => exact means_path _ 17 _ (by decide +kernel) (by decide +kernel) rfl
  case Bold => exact means_path _ 18 _ (by decide +kernel) (by decide +kernel) rfl
  case Faint => exact means_path _ 19 _ (by decide +kernel) (by decide +kernel) rfl

/-! ### Options -/

/-- An `Option` as a value. -/
def optVal {B : Type} (f : B → Val) : Option B → Val
  | none => .optNone
  | some b => .optSome (f b)

theorem means_none : Means (Y := Y) (path ["Option", "None"]) .optNone :=
  means_path _ 27 _ (by decide +kernel) (by decide +kernel) rfl

theorem callExport_some (sc : Scope) (vs : List Val) :
    callExport sc (["Option", "Some"].map str) vs = fnSome vs :=
  callExport_at sc _ 4 _ vs (by decide +kernel) (by decide +kernel) (by decide +kernel) rfl

theorem means_some {t : RExpr Y} {v : Val} (h : Means t v) :
    Means (.call (path ["Option", "Some"]) [t]) (.optSome v) := by
  intro St u sc st
  simp only [path, eval, evalList, h u sc st, bind, Option.bind, callExport_some, fnSome, pure]

theorem quoteOpt_pure {A B : Type} (tok : A → Compile (RExpr Y)) (conv : A → B) (f : B → Val)
    (h : ∀ a, ∃ t, tok a = .ok t ∧ Means t (f (conv a))) (o : Option A) :
    ∃ t, quoteOpt tok o = .ok t ∧ Means t (optVal f (o.map conv)) := by
  cases o with
  | none => exact ⟨_, rfl, means_none⟩
  | some a =>
    obtain ⟨t, ht, hm⟩ := h a
    exact ⟨_, by simp only [quoteOpt, ht, bind, Except.bind, pure, Except.pure], means_some hm⟩

theorem quote_align (o : Option Align) :
    ∃ t, quoteOpt (Y := Y) align o = .ok t ∧ Means t (optVal Val.align (alignTokens o)) := by
  have h := quoteOpt_pure (Y := Y) align id Val.align (fun a => by
    cases a
    case Left => exact ⟨_, rfl, means_path _ 20 _ (by decide +kernel) (by decide +kernel) rfl⟩
    case Center => exact ⟨_, rfl, means_path _ 21 _ (by decide +kernel) (by decide +kernel) rfl⟩
    case Right => exact ⟨_, rfl, means_path _ 22 _ (by decide +kernel) (by decide +kernel) rfl⟩) o
  have e : alignTokens o = o.map id := by rcases o with _ | _ | _ | _ <;> rfl
  rw [e]; exact h

theorem quote_sign (o : Option Sign) :
    ∃ t, quoteOpt (Y := Y) sign o = .ok t ∧ Means t (optVal Val.sign (signTokens o)) := by
  have h := quoteOpt_pure (Y := Y) sign id Val.sign (fun a => by
    cases a
    case Plus => exact ⟨_, rfl, means_path _ 23 _ (by decide +kernel) (by decide +kernel) rfl⟩
    case Minus => exact ⟨_, rfl, means_path _ 24 _ (by decide +kernel) (by decide +kernel) rfl⟩) o
  have e : signTokens o = o.map id := by rcases o with _ | _ | _ <;> rfl
  rw [e]; exact h

theorem quote_debugHex (o : Option DebugHex) :
    ∃ t, quoteOpt (Y := Y) debugHex o = .ok t ∧ Means t (optVal Val.debugHex (debugHexTokens o)) := by
  have h := quoteOpt_pure (Y := Y) debugHex id Val.debugHex (fun a => by
    cases a
    case Lower => exact ⟨_, rfl, means_path _ 25 _ (by decide +kernel) (by decide +kernel) rfl⟩
    case Upper => exact ⟨_, rfl, means_path _ 26 _ (by decide +kernel) (by decide +kernel) rfl⟩) o
  have e : debugHexTokens o = o.map id := by rcases o with _ | _ | _ <;> rfl
  rw [e]; exact h

theorem quote_count (o : Option Count) :
    Agree (fun (t : RExpr Y) n => Means t (optVal (fun n => .ref (.nat n)) n)) (quoteOpt count o) (countTokens o) := by
  rcases o with _ | _ | n
  · exact means_none
  · exact rfl
  · refine means_some (v := .ref (.nat n)) ?_
    intro St u sc st
    rfl

/-! ### The options of a placeholder -/

/-- The names of the fields. -/
def argNames : List Str := ["align", "sign", "alternate", "zero", "width", "precision", "debug_hex"].map str

theorem field_at (a b c d e f g : Val) (name : Str) (i : Nat) (h : argNames.findIdx? (fun x => name == x) = some i) :
    (argNames.zip [a, b, c, d, e, f, g]).lookup name = [a, b, c, d, e, f, g][i]? := by
  have e1 : (argNames.zip [a, b, c, d, e, f, g]).map Prod.fst = argNames := List.map_fst_zip (Nat.le_refl _)
  rw [lookup_at _ _ i (by rw [e1]; exact h)]
  rw [← List.getElem?_map, List.map_snd_zip (l₁ := argNames) (by simp [argNames])]

theorem toOption_optVal {B : Type} (f : B → Val) (p : Val → Option B) (h : ∀ b, p (f b) = some b) (o : Option B) :
    (optVal f o).toOption p = some o := by
  cases o with
  | none => rfl
  | some b => simp [optVal, Val.toOption, h]

theorem makeFormatterArgs_eq (a : FormatterArgs) :
    makeFormatterArgs (argNames.zip [optVal Val.align a.align, optVal Val.sign a.sign, .bool a.alternate, .bool a.zero,
      optVal (fun n => .ref (.nat n)) a.width, optVal (fun n => .ref (.nat n)) a.precision, optVal Val.debugHex a.debugHex]) = some a := by
  unfold makeFormatterArgs
  rw [field_at _ _ _ _ _ _ _ _ 0 (by decide +kernel), field_at _ _ _ _ _ _ _ _ 1 (by decide +kernel),
    field_at _ _ _ _ _ _ _ _ 2 (by decide +kernel), field_at _ _ _ _ _ _ _ _ 3 (by decide +kernel),
    field_at _ _ _ _ _ _ _ _ 4 (by decide +kernel), field_at _ _ _ _ _ _ _ _ 5 (by decide +kernel),
    field_at _ _ _ _ _ _ _ _ 6 (by decide +kernel)]
  simp only [List.getElem?_cons_zero, List.getElem?_cons_succ, bind, Val.toBool,
    toOption_optVal Val.align Val.toAlign (fun _ => rfl), toOption_optVal Val.sign Val.toSign (fun _ => rfl),
    toOption_optVal (fun n => .ref (.nat n)) Val.toNat (fun _ => rfl), toOption_optVal Val.debugHex Val.toDebugHex (fun _ => rfl),
    Option.bind]
  rw [if_pos (by simp [argNames])]

theorem makeStruct_formatterArgs (fields : List (Str × Val)) :
    makeStruct [str "FormatterArgs"] fields = (makeFormatterArgs fields).map .formatterArgs := by
  unfold makeStruct
  rw [if_neg (by decide +kernel), if_neg (by decide +kernel), if_neg (by decide +kernel), if_pos rfl]

theorem makeStruct_arguments (fields : List (Str × Val)) :
    makeStruct [str "Arguments"] fields = (makeArguments fields).map .arguments := by
  unfold makeStruct
  rw [if_neg (by decide +kernel), if_pos rfl]

theorem makeStruct_stdFmt (fields : List (Str × Val)) :
    makeStruct [str "StdFmt"] fields = (makeStdFmt fields).map .stdFmt := by
  unfold makeStruct
  rw [if_neg (by decide +kernel), if_neg (by decide +kernel), if_pos rfl]

theorem agree_formatterArgs (a : MFormatterArgs) :
    Agree (fun (t : RExpr Y) a => Means t (.ref (.formatterArgs a))) (formatterArgs a) (formatterArgsTokens a) := by
  obtain ⟨t1, e1, h1⟩ := quote_align (Y := Y) a.align
  obtain ⟨t2, e2, h2⟩ := quote_sign (Y := Y) a.sign
  obtain ⟨t3, e3, h3⟩ := quote_debugHex (Y := Y) a.debugHex
  unfold formatterArgs formatterArgsTokens
  rw [e1, e2]
  show Agree _ (quoteOpt count a.width >>= _) _
  refine Agree.bind (quote_count a.width) fun t4 w h4 => ?_
  refine Agree.bind (quote_count a.precision) fun t5 p h5 => ?_
  rw [e3]
  intro St u sc st
  have h := makeFormatterArgs_eq
    ⟨alignTokens a.align, signTokens a.sign, a.alternate, a.zero, w, p, debugHexTokens a.debugHex⟩
  simp only [argNames] at h
  simp only [eval, evalList, h1 u sc st, h2 u sc st, h3 u sc st, h4 u sc st, h5 u sc st, bind, Option.bind, pure,
    makeStruct_formatterArgs, h, Option.map_some]

/-! ### The style of a placeholder -/

theorem bind_free {sc : Scope} {i : Ident} (h : Free sc i.name) (v : Val) :
    sc.bind i v = some { sc with locals := (i, v) :: sc.locals } := by
  unfold Scope.bind
  unfold Free at h
  split at h
  · rename_i e; rw [e]
  · rename_i e; rw [e]
  · exact h.elim

/-- The code evaluates to the value in the given place. -/
def MeansIn (sc : Scope) (t : RExpr Y) (v : Val) : Prop :=
  ∀ {St : Type} (u : UserExprs Y St) (st : St), eval u sc t st = some (v, st)

/-- `Some` is the `Some` of the prelude, here. -/
def SomeHere (sc : Scope) : Prop := sc.locals.lookup (ours "Some") = none ∧ PreludeSome sc

theorem callByName_some {sc : Scope} (h : SomeHere sc) (vs : List Val) :
    sc.callByName (ours "Some") vs = fnSome vs := by
  unfold Scope.callByName
  rw [h.1]
  have h2 : sc.items (ours "Some").name = _ := h.2
  simp only [h2]

theorem lookup_push {locals : List (Ident × Val)} {i j : Ident} (v : Val) (h : (i == j) = false) :
    List.lookup i ((j, v) :: locals) = List.lookup i locals := by
  rw [List.lookup_cons, h]

theorem lookup_top {locals : List (Ident × Val)} {i : Ident} (v : Val) :
    List.lookup i ((i, v) :: locals) = some v := by
  rw [List.lookup_cons]; simp

/-- The rest of the block `{ let mut diff = ..; .. }`: `g` is done to `diff`; `P` says whether `Some` is mentioned. -/
def Rest (P : Prop) (t : RExpr Y) (g : StyleDiff → StyleDiff) : Prop :=
  ∀ (sc : Scope) (d : StyleDiff), (P → SomeHere sc) → sc.locals.lookup (ours "diff") = some (.styleDiff d) →
    MeansIn sc t (.styleDiff (g d))

theorem rest_diff : Rest (Y := Y) False (.ident (ours "diff")) id := by
  intro sc d _ h St u st
  simp only [eval, Scope.lookup, h, Option.map_some, id]

theorem some_ne_diff : (ours "Some" == ours "diff") = false := by decide +kernel

theorem rest_set {P : Prop} {rest : RExpr Y} {g : StyleDiff → StyleDiff} (h : Rest P rest g) (field : String)
    (t : RExpr Y) (v : Val) (ht : Means t v) (set : StyleDiff → StyleDiff)
    (hs : ∀ d, (Val.styleDiff d).set (str field) (.optSome v) = some (.styleDiff (set d))) :
    Rest True (.setField (ours "diff") (str field) (.call (.ident (ours "Some")) [t]) rest) (g ∘ set) := by
  intro sc d hsome hd St u st
  have hS := hsome trivial
  have hn := h { sc with locals := (ours "diff", .styleDiff (set d)) :: sc.locals } (set d)
    (fun _ => ⟨by rw [lookup_push _ some_ne_diff]; exact hS.1, hS.2⟩) (lookup_top _) u st
  simp only [eval, evalList, ht u sc st, bind, Option.bind, pure, callByName_some hS, fnSome, hd, hs d, hn]
  rfl

/-- One attribute: it is an error, or the assignment is put in front. -/
theorem assign_color {P : Prop} {rest : RExpr Y} {g : StyleDiff → StyleDiff} (h : Rest P rest g) (field : String)
    (set : Color → StyleDiff → StyleDiff)
    (hs : ∀ c d, (Val.styleDiff d).set (str field) (.optSome (.color c)) = some (.styleDiff (set c d)))
    (c : Color) :
    (assign field color (some c) rest = .error .unreachableArm ∧ colorTokens c = .error .unreachableArm) ∨
    ∃ t, assign field color (some c) rest = .ok t ∧ colorTokens c = .ok c ∧ Rest True t (g ∘ set c) := by
  have hc := agree_color (Y := Y) c
  have hc2 : colorTokens c = .ok c ∨ colorTokens c = .error .unreachableArm := by cases c <;> simp [colorTokens]
  unfold assign
  rcases hc2 with e | e <;> rw [e] at hc <;> rcases ht : color (Y := Y) c with e' | t <;> rw [ht] at hc
  · exact hc.elim
  · exact .inr ⟨_, by simp only [ht]; rfl, e, rest_set h field t (.color c) hc (set c) (hs c)⟩
  · cases (show e' = _ from hc)
    exact .inl ⟨by simp only [ht]; rfl, e⟩
  · exact hc.elim

theorem assign_intensity {P : Prop} {rest : RExpr Y} {g : StyleDiff → StyleDiff} (h : Rest P rest g) (i : Intensity) :
    ∃ t, assign "intensity" intensity (some i) rest = .ok t ∧ intensityTokens i = .ok i ∧
      Rest True t (g ∘ fun d => { d with intensity := some i }) := by
  have hc := agree_intensity (Y := Y) i
  have e : intensityTokens i = .ok i := by cases i <;> rfl
  unfold assign
  rw [e] at hc
  rcases ht : intensity (Y := Y) i with e' | t <;> rw [ht] at hc
  · exact hc.elim
  · refine ⟨_, by simp only [ht]; rfl, e, rest_set h "intensity" t (.intensity i) hc _ fun d => ?_⟩
    unfold Val.set
    simp only
    rw [if_neg (by decide +kernel), if_neg (by decide +kernel), if_pos trivial]
    rfl

theorem set_foreground (c : Color) (d : StyleDiff) :
    (Val.styleDiff d).set (str "foreground") (.optSome (.color c)) = some (.styleDiff { d with foreground := some c }) := by
  unfold Val.set
  simp only
  rw [if_pos trivial]
  rfl

theorem set_background (c : Color) (d : StyleDiff) :
    (Val.styleDiff d).set (str "background") (.optSome (.color c)) = some (.styleDiff { d with background := some c }) := by
  unfold Val.set
  simp only
  rw [if_neg (by decide +kernel), if_pos trivial]
  rfl

theorem assign_none {A : Type} {P : Prop} {rest : RExpr Y} {g : StyleDiff → StyleDiff} (h : Rest P rest g)
    (field : String) (tok : A → Compile (RExpr Y)) :
    ∃ t, assign field tok none rest = .ok t ∧ Rest P t g := ⟨rest, rfl, h⟩

theorem callExport_default {sc : Scope} (h : PreludeDefault sc) (vs : List Val) :
    callExport sc (["StyleDiff", "default"].map str) vs = fnStyleDiffDefault vs := by
  unfold callExport
  have hk : functionPaths.findIdx? (fun x => ["StyleDiff", "default"].map str == x) = some 3 := by decide +kernel
  rw [if_pos ⟨by decide +kernel, fun _ => h⟩, lookup_at _ _ 3 hk]
  rfl

theorem diff_reserved : str "diff" ∈ reserved := by decide +kernel

/-- The block as a whole. -/
theorem means_block {P : Prop} {rest : RExpr Y} {g : StyleDiff → StyleDiff} (h : Rest P rest g) (sc : Scope)
    (hf : Free sc (str "diff")) (hd : PreludeDefault sc) (hs : P → SomeHere sc) :
    MeansIn sc (.letMut (ours "diff") (.call (path ["StyleDiff", "default"]) []) rest)
      (.styleDiff (g StyleDiff.default)) := by
  intro St u st
  have hn := h { sc with locals := (ours "diff", .styleDiff StyleDiff.default) :: sc.locals } StyleDiff.default
    (fun p => ⟨by rw [lookup_push _ some_ne_diff]; exact (hs p).1, (hs p).2⟩) (lookup_top _) u st
  simp only [path, eval, evalList, bind, Option.bind, pure, callExport_default hd, fnStyleDiffDefault,
    bind_free (i := ours "diff") hf, hn]

/-- What the code for a `StyleDiff` needs of the place. -/
def StyleNeeds (d : StyleDiff) (sc : Scope) : Prop :=
  Free sc (str "diff") ∧ PreludeDefault sc ∧ (d ≠ StyleDiff.default → SomeHere sc)

theorem agree_styleDiff (d : StyleDiff) :
    Agree (fun (t : RExpr Y) d' => d' = d ∧ ∀ sc, StyleNeeds d sc → MeansIn sc t (.styleDiff d)) (styleDiff d)
      (styleDiffTokens d) := by
  obtain ⟨fg, bg, it⟩ := d
  -- intensity
  have h1 : ∃ t, assign "intensity" intensity it (.ident (ours "diff")) = .ok t ∧
      (∀ i, it = some i → intensityTokens i = .ok i) ∧
      Rest (Y := Y) (it ≠ none) t (fun d => { d with intensity := it.or d.intensity }) := by
    cases it with
    | none =>
      refine ⟨_, rfl, fun i hi => (nomatch hi), ?_⟩
      have := rest_diff (Y := Y)
      exact fun sc d hs hd => this sc d (fun f => f.elim) hd
    | some i =>
      obtain ⟨t, e1, e2, e3⟩ := assign_intensity (rest_diff (Y := Y)) i
      refine ⟨t, e1, fun j hj => by cases hj; exact e2, fun sc d hs hd => e3 sc d (fun _ => hs (by simp)) hd⟩
  obtain ⟨t1, e1, hi, r1⟩ := h1
  have h2 : (assign "background" color bg t1 = .error .unreachableArm ∧ ∃ c, bg = some c ∧
        colorTokens c = .error .unreachableArm) ∨
      ∃ t, assign "background" color bg t1 = .ok t ∧ (∀ c, bg = some c → colorTokens c = .ok c) ∧
        Rest (Y := Y) (bg ≠ none ∨ it ≠ none) t
          (fun d => { d with background := bg.or d.background, intensity := it.or d.intensity }) := by
    cases bg with
    | none =>
      exact .inr ⟨_, rfl, fun i hi => (nomatch hi), fun sc d hs hd => r1 sc d (fun h => hs (.inr h)) hd⟩
    | some c =>
      rcases assign_color r1 "background" (fun c d => { d with background := some c }) set_background c with h | h
      · exact .inl ⟨h.1, c, rfl, h.2⟩
      · obtain ⟨t, e1, e2, e3⟩ := h
        exact .inr ⟨t, e1, fun j hj => by cases hj; exact e2, fun sc d hs hd => e3 sc d (fun _ => hs (by simp)) hd⟩
  unfold styleDiff styleDiffTokens
  simp only [e1, bind, Except.bind]
  rcases h2 with ⟨e2, c, rfl, e2'⟩ | ⟨t2, e2, hb, r2⟩
  · simp only [e2]
    cases fg with
    | none => simp [e2', Agree, pure, Except.pure]
    | some f =>
      have : colorTokens f = .ok f ∨ colorTokens f = .error .unreachableArm := by cases f <;> simp [colorTokens]
      rcases this with e | e <;> simp [e, e2', Agree, pure, Except.pure]
  · simp only [e2]
    have h3 : (assign "foreground" color fg t2 = .error .unreachableArm ∧ ∃ c, fg = some c ∧
          colorTokens c = .error .unreachableArm) ∨
        ∃ t, assign "foreground" color fg t2 = .ok t ∧ (∀ c, fg = some c → colorTokens c = .ok c) ∧
          Rest (Y := Y) (fg ≠ none ∨ bg ≠ none ∨ it ≠ none) t
            (fun d => { foreground := fg.or d.foreground, background := bg.or d.background,
                        intensity := it.or d.intensity }) := by
      cases fg with
      | none =>
        exact .inr ⟨_, rfl, fun i hi => (nomatch hi), fun sc d hs hd => r2 sc d (fun h => hs (.inr h)) hd⟩
      | some c =>
        rcases assign_color r2 "foreground" (fun c d => { d with foreground := some c }) set_foreground c with h | h
        · exact .inl ⟨h.1, c, rfl, h.2⟩
        · obtain ⟨t, e1, e2, e3⟩ := h
          exact .inr ⟨t, e1, fun j hj => by cases hj; exact e2, fun sc d hs hd => e3 sc d (fun _ => hs (by simp)) hd⟩
    rcases h3 with ⟨e3, c, rfl, e3'⟩ | ⟨t3, e3, hf, r3⟩
    · simp [e3, e3', Agree]
    · simp only [e3]
      have hm : ∀ sc, StyleNeeds ⟨fg, bg, it⟩ sc →
          MeansIn sc (.letMut (ours "diff") (.call (path (Y := Y) ["StyleDiff", "default"]) []) t3)
            (.styleDiff ⟨fg, bg, it⟩) := by
        intro sc hn St u st
        have hne : (fg ≠ none ∨ bg ≠ none ∨ it ≠ none) → (⟨fg, bg, it⟩ : StyleDiff) ≠ StyleDiff.default := by
          intro h e; cases e; simp at h
        have := means_block r3 sc hn.1 hn.2.1 (fun h => hn.2.2 (hne h)) u st
        simpa [StyleDiff.default] using this
      have ht : styleDiffTokens ⟨fg, bg, it⟩ = .ok ⟨fg, bg, it⟩ := by
        unfold styleDiffTokens
        rcases fg with _ | f <;> rcases bg with _ | b <;> rcases it with _ | i <;>
          simp only [Option.some.injEq, forall_eq', reduceCtorEq, false_imp_iff, implies_true] at hf hb hi <;>
          simp [bind, Except.bind, pure, Except.pure, StyleDiff.default, *]
      unfold styleDiffTokens at ht
      simp only [bind, Except.bind] at ht
      rw [ht]
      exact ⟨rfl, hm⟩

/-! ### The value of a placeholder -/

theorem paramOf_std : paramOf [str "fmt", str "Formatter"] = some (.refMut .stdFormatter) := by
  unfold paramOf
  rw [if_neg (by decide +kernel), if_pos rfl]

theorem paramOf_formatter : paramOf [str "Formatter"] = some (.refMut .formatter) := by
  unfold paramOf
  rw [if_pos rfl]

theorem free_of_items {sc sc' : Scope} (h : sc'.items = sc.items) {name : Str} (hf : Free sc name) : Free sc' name := by
  unfold Free at *
  rw [h]; exact hf

theorem arg_ne_formatter : (ours "__stylish_arg" == ours "__stylish_formatter") = false := by decide +kernel

theorem means_stdFmt (name : String) (tr : FormatTrait) (i : Nat)
    (hk : functionPaths.findIdx? (fun x => ["fmt", name, "fmt"].map str == x) = some i)
    (hf : (functions[i]?).map Prod.snd = some (fnStdFmt tr)) (sc : Scope) (e : RExpr Y) (v : TypedVal)
    (hi : v.impls tr = true) (he : MeansIn sc e (.ref (.arg v))) (h1 : Free sc (str "__stylish_arg")) (h2 : Free sc (str "__stylish_formatter")) :
    MeansIn sc (.struct [str "StdFmt"] [str "f"] [
      .ref (.matchIdent e (ours "__stylish_arg")
        (.closure (ours "__stylish_formatter") [str "fmt", str "Formatter"]
          (.call (path ["fmt", name, "fmt"])
            [.ident (ours "__stylish_arg"), .ident (ours "__stylish_formatter")])))]) (.stdFmt ⟨v.value.std tr⟩) := by
  intro St u st
  have hc : ∀ sc vs, callExport sc (["fmt", name, "fmt"].map str) vs = fnStdFmt tr vs := fun sc vs =>
    callExport_at sc _ i _ vs (by simp only [List.map_cons, List.headD_cons]; decide +kernel)
      (by simp only [List.map_cons, List.getLastD_cons, List.map_nil, List.getLastD_nil]; decide +kernel) hk hf
  have h2' : Free { sc with locals := (ours "__stylish_arg", Val.ref (.arg v)) :: sc.locals } (str "__stylish_formatter") := h2
  simp only [path, eval, evalList, he u st, bind, Option.bind, pure, bind_free (i := ours "__stylish_arg") h1,
    paramOf_std, bind_free (i := ours "__stylish_formatter") h2', Scope.lookup, lookup_top, lookup_push _ arg_ne_formatter,
    Option.map_some, hc, fnStdFmt, hi, closureOf, makeStruct_stdFmt, List.zip_cons_cons, List.zip_nil_left, makeStdFmt, if_pos]

theorem callExport_stdFmtDebug (sc : Scope) (vs : List Val) :
    callExport sc (["StdFmtDebug"].map str) vs = fnStdFmtDebug vs :=
  callExport_at sc _ 5 _ vs (by decide +kernel) (by decide +kernel) (by decide +kernel) rfl

theorem callExport_stdFmtOther (sc : Scope) (vs : List Val) :
    callExport sc (["StdFmtOther"].map str) vs = fnStdFmtOther vs :=
  callExport_at sc _ 6 _ vs (by decide +kernel) (by decide +kernel) (by decide +kernel) rfl

theorem means_other {sc : Scope} {t : RExpr Y} {f : StdFmt} (h : MeansIn sc t (.stdFmt f)) :
    MeansIn sc (.call (path ["StdFmtOther"]) [t]) (.stdFmtOther ⟨f⟩) := by
  intro St u st
  simp only [path, eval, evalList, h u st, bind, Option.bind, pure, callExport_stdFmtOther, fnStdFmtOther]

theorem means_debug {sc : Scope} {t : RExpr Y} {f : StdFmt} (h : MeansIn sc t (.stdFmt f)) :
    MeansIn sc (.call (path ["StdFmtDebug"]) [t]) (.stdFmtDebug ⟨f⟩) := by
  intro St u st
  simp only [path, eval, evalList, h u st, bind, Option.bind, pure, callExport_stdFmtDebug, fnStdFmtDebug]

/-- The code evaluates to something that is displayed so. -/
def ShowsIn (sc : Scope) (t : RExpr Y) (d : Disp) : Prop := ∃ w, MeansIn sc t w ∧ w.display = some d

theorem agree_arg (tr : FormatTrait) (e : RExpr Y) :
    Agree (fun t tr' => tr' = tr ∧ ∀ sc v, v.impls tr = true → MeansIn sc e (.ref (.arg v)) → Free sc (str "__stylish_arg") →
      Free sc (str "__stylish_formatter") → ShowsIn sc t (wrapArg tr v.value)) (arg tr e) (argTokens tr) := by
  cases tr
  case Stylish => exact ⟨rfl, fun sc v hi he _ _ => ⟨_, he, if_pos hi⟩⟩
  case Debug =>
    exact ⟨rfl, fun sc v hi he h1 h2 => ⟨_, means_debug (means_stdFmt "Debug" .Debug 9 (by decide +kernel) rfl sc e v hi he h1 h2), rfl⟩⟩
  case Display =>
    exact ⟨rfl, fun sc v hi he h1 h2 => ⟨_, means_other (means_stdFmt _ _ 8 (by decide +kernel) rfl sc e v hi he h1 h2), rfl⟩⟩
  case Octal =>
    exact ⟨rfl, fun sc v hi he h1 h2 => ⟨_, means_other (means_stdFmt _ _ 10 (by decide +kernel) rfl sc e v hi he h1 h2), rfl⟩⟩
  case LowerHex =>
    exact ⟨rfl, fun sc v hi he h1 h2 => ⟨_, means_other (means_stdFmt _ _ 11 (by decide +kernel) rfl sc e v hi he h1 h2), rfl⟩⟩
  case UpperHex =>
    exact ⟨rfl, fun sc v hi he h1 h2 => ⟨_, means_other (means_stdFmt _ _ 12 (by decide +kernel) rfl sc e v hi he h1 h2), rfl⟩⟩
  case Pointer =>
    exact ⟨rfl, fun sc v hi he h1 h2 => ⟨_, means_other (means_stdFmt _ _ 13 (by decide +kernel) rfl sc e v hi he h1 h2), rfl⟩⟩
  case Binary =>
    exact ⟨rfl, fun sc v hi he h1 h2 => ⟨_, means_other (means_stdFmt _ _ 14 (by decide +kernel) rfl sc e v hi he h1 h2), rfl⟩⟩
  case LowerExp =>
    exact ⟨rfl, fun sc v hi he h1 h2 => ⟨_, means_other (means_stdFmt _ _ 15 (by decide +kernel) rfl sc e v hi he h1 h2), rfl⟩⟩
  case UpperExp =>
    exact ⟨rfl, fun sc v hi he h1 h2 => ⟨_, means_other (means_stdFmt _ _ 16 (by decide +kernel) rfl sc e v hi he h1 h2), rfl⟩⟩

/-! ### Statements -/

/-- The values the closure captures, with their types. -/
structure Tuples where
  positional : List TypedVal
  named : List TypedVal
  implicit : List TypedVal

/-- Without their types. -/
def Tuples.values (c : Tuples) : Captured :=
  ⟨c.positional.map TypedVal.value, c.named.map TypedVal.value, c.implicit.map TypedVal.value⟩

/-- One of them. -/
def Tuples.get (c : Tuples) : Slot → Option TypedVal
  | .positional i => c.positional[i]?
  | .named i => c.named[i]?
  | .implicit i => c.implicit[i]?

theorem Tuples.get_values (c : Tuples) (s : Slot) : c.values.get s = (c.get s).map TypedVal.value := by
  cases s <;> simp [Tuples.values, Tuples.get, Captured.get]

/-- The local variables inside the closure. -/
structure Inside (sc : Scope) (c : Tuples) : Prop where
  positional : sc.locals.lookup (ours "__stylish_positional_args") = some (.tuple (c.positional.map fun v => .ref (.arg v)))
  named : sc.locals.lookup (ours "__stylish_named_args") = some (.tuple (c.named.map fun v => .ref (.arg v)))
  implicit : sc.locals.lookup (ours "__stylish_implicit_named_args") = some (.tuple (c.implicit.map fun v => .ref (.arg v)))
  formatter : sc.locals.lookup (ours "__stylish_formatter") = some (.refMut .formatter)
  someFree : sc.locals.lookup (ours "Some") = none
  free : ∀ name ∈ reserved, Free sc name

theorem means_slot {sc : Scope} {c : Tuples} (h : Inside sc c) (s : Slot) (v : TypedVal) (hv : c.get s = some v) :
    MeansIn (Y := Y) sc (slot s) (.ref (.arg v)) := by
  intro St u st
  cases s <;>
  · simp only [Tuples.get] at hv
    simp [slot, eval, Scope.lookup, h.positional, h.named, h.implicit, hv]

/-- What a generated statement does, given what is done next. -/
def stmtDo (c : Captured) : Stmt → (FmtResult → Disp) → Disp
  | .lit s, k => .writeStr s k
  | .arg slot tr a d, k =>
    match c.get slot with
    | none => .panic
    | some v => .withinArgs a (.of d) (wrapArg tr v) k

theorem runStmts_cons (c : Captured) (s : Stmt) (rest : List Stmt) :
    runStmts c (s :: rest) = stmtDo c s (Disp.try_ (runStmts c rest)) := by
  cases s <;> rfl

/-- What the code of a statement needs of the place. -/
def StmtNeeds (sc : Scope) : Stmt → Prop
  | .lit _ => True
  | .arg _ _ _ d => PreludeDefault sc ∧ (d ≠ StyleDiff.default → PreludeSome sc)

/-- The values a statement refers to are there, and implement its trait. -/
def StmtFilled (c : Tuples) : Stmt → Prop
  | .lit _ => True
  | .arg slot tr _ _ => ∃ v, c.get slot = some v ∧ v.impls tr = true

theorem callExport_writeStr (sc : Scope) (vs : List Val) :
    callExport sc (["Formatter", "write_str"].map str) vs = fnWriteStr vs :=
  callExport_at sc _ 0 _ vs (by decide +kernel) (by decide +kernel) (by decide +kernel) rfl

theorem callExport_withArgs (sc : Scope) (vs : List Val) :
    callExport sc (["Formatter", "with_args"].map str) vs = fnWithArgs vs :=
  callExport_at sc _ 1 _ vs (by decide +kernel) (by decide +kernel) (by decide +kernel) rfl

theorem callExport_displayFmt (sc : Scope) (vs : List Val) :
    callExport sc (["Display", "fmt"].map str) vs = fnDisplayFmt vs :=
  callExport_at sc _ 2 _ vs (by decide +kernel) (by decide +kernel) (by decide +kernel) rfl

theorem callExport_ok (sc : Scope) (vs : List Val) :
    callExport sc (["fmt", "Result", "Ok"].map str) vs = fnOk vs :=
  callExport_at sc _ 7 _ vs (by decide +kernel) (by decide +kernel) (by decide +kernel) rfl

theorem agree_refl {A : Type} {P : A → A → Prop} (x : Compile A) (h : ∀ a, P a a) : Agree P x x := by
  cases x
  · exact rfl
  · exact h _

theorem agree_piece (n : Nat) (names : List Str) (st : GenState) (p : Piece) :
    Agree (fun (t : RExpr Y × GenState) (s : Stmt × GenState) => t.2 = s.2 ∧ ∀ sc c, Inside sc c → StmtNeeds sc s.1 →
      StmtFilled c s.1 → MeansIn sc t.1 (.result (stmtDo c.values s.1))) (piece n names st p) (genPiece n names st p) := by
  cases p with
  | Lit l =>
    refine ⟨rfl, fun sc c hin _ _ St u st => ?_⟩
    simp only [path, eval, evalList, Scope.lookup, hin.formatter, Option.map_some, bind, Option.bind, pure,
      callExport_writeStr, fnWriteStr]
    rfl
  | Arg a =>
    unfold piece genPiece
    refine Agree.bind (agree_refl (P := (· = ·)) (resolveRef n names st a.arg) (fun _ => rfl)) ?_
    rintro ⟨s, st1⟩ _ rfl
    refine Agree.bind (agree_arg a.formatSpec.formatTrait (slot s)) ?_
    rintro t1 _ ⟨rfl, h1⟩
    refine Agree.bind (agree_formatterArgs a.formatSpec.formatterArgs) ?_
    intro t2 fa h2
    refine Agree.bind (agree_styleDiff a.formatSpec.style) ?_
    rintro t3 _ ⟨rfl, h3⟩
    refine ⟨rfl, fun sc c hin hneeds hfilled St u st => ?_⟩
    have hf : ∀ name ∈ reserved, Free sc name := hin.free
    obtain ⟨v, hv, hi⟩ := hfilled
    · obtain ⟨w, hw, hd⟩ := h1 sc v hi (means_slot hin s v hv) (hf _ (by decide +kernel)) (hf _ (by decide +kernel))
      have h3 := h3 sc ⟨hf _ (by decide +kernel), hneeds.1, fun h => ⟨hin.someFree, hneeds.2 h⟩⟩ u st
      simp only [path, eval, evalList, hw u st, h2 u sc st, h3, Scope.lookup, hin.formatter, Option.map_some, bind,
        Option.bind, pure, callExport_withArgs, fnWithArgs, callExport_displayFmt, fnDisplayFmt, hd]
      congr 3
      funext k
      simp only [stmtDo, Tuples.get_values, hv, Option.map_some]

theorem agree_pieces (n : Nat) (names : List Str) (st : GenState) (ps : List Piece) :
    Agree (fun (t : List (RExpr Y) × GenState) (s : List Stmt × GenState) => t.2 = s.2 ∧ ∀ sc c, Inside sc c →
      (∀ x ∈ s.1, StmtNeeds sc x) → (∀ x ∈ s.1, StmtFilled c x) →
      ∃ K, MeansIn sc (body t.1) (.result K) ∧ K Disp.done = runStmts c.values s.1)
      (pieces n names st ps) (genPieces n names st ps) := by
  induction ps generalizing st with
  | nil =>
    refine ⟨rfl, fun sc c hin _ _ => ⟨fun k => k .ok, fun u st => ?_, rfl⟩⟩
    simp only [body, path, eval, evalList, bind, Option.bind, pure, callExport_ok, fnOk]
  | cons p ps ih =>
    unfold pieces genPieces
    refine Agree.bind (agree_piece n names st p) ?_
    rintro ⟨t, st1⟩ ⟨s, _⟩ ⟨rfl, h1⟩
    refine Agree.bind (ih st1) ?_
    rintro ⟨ts, st2⟩ ⟨ss, _⟩ ⟨rfl, h2⟩
    refine ⟨rfl, fun sc c hin hneeds hfilled => ?_⟩
    have m1 : MeansIn sc t (.result (stmtDo c.values s)) := h1 sc c hin (hneeds s (by simp)) (hfilled s (by simp))
    obtain ⟨K, m2, e2⟩ := h2 sc c hin (fun x hx => hneeds x (by simp [hx])) (fun x hx => hfilled x (by simp [hx]))
    refine ⟨fun fin => stmtDo c.values s (afterTry (K fin) (fin .err)), fun u st => ?_, ?_⟩
    · simp only [body, eval, m1 u st, m2 u st, bind, Option.bind, pure, seqTry]
    · show stmtDo c.values s _ = _
      rw [runStmts_cons, ← e2]
      congr 1

/-! ### The whole expression -/

/-- The values of the expressions, with their types. -/
def typed (types : Y → FormatTrait → Bool) (es : List Y) (vs : List ArgVal) : List TypedVal :=
  (vs.zip es).map fun p => ⟨p.1, types p.2⟩

theorem typed_values (types : Y → FormatTrait → Bool) (es : List Y) (vs : List ArgVal) (h : vs.length = es.length) :
    (typed types es vs).map TypedVal.value = vs := by
  unfold typed
  rw [List.map_map]
  have : (TypedVal.value ∘ fun p : ArgVal × Y => ⟨p.1, types p.2⟩) = Prod.fst := rfl
  rw [this, List.map_fst_zip (by omega)]

theorem eval_users (u : UserExprs Y St) (sc : Scope) (m : Y → Expr St) (types : Y → FormatTrait → Bool)
    (hl : ∀ b ∈ sc.locals, b.1.site = .callers) (hu : ExprsMean u sc m types) (es : List Y) (st : St) :
    evalList u sc (es.map fun e => .ref (.user e)) st =
      some ((typed types es (evalTuple (es.map m) st).1).map fun v => .ref (.arg v), (evalTuple (es.map m) st).2) := by
  have hfil : (sc.locals.filter fun b => b.1.site = .callers) = sc.locals :=
    List.filter_eq_self.2 fun b hb => by simpa using hl b hb
  induction es generalizing st with
  | nil => simp [evalList, evalTuple, typed]
  | cons e es ih =>
    simp only [List.map_cons, evalList, eval, hfil, hu e st, bind, Option.bind, ih, pure, evalTuple, typed,
      List.zip_cons_cons]

theorem eval_vars (u : UserExprs Y St) (sc : Scope) (vars : Str → TypedVal) (names : List Str)
    (hv : ∀ n ∈ names, sc.lookup ⟨n, .callers⟩ = some (.arg (vars n))) (st : St) :
    evalList u sc (names.map fun n => .ref (.ident ⟨n, .callers⟩)) st =
      some ((names.map vars).map fun v => .ref (.arg v), st) := by
  induction names with
  | nil => simp [evalList]
  | cons n names ih =>
    simp only [List.map_cons, evalList, eval, hv n (by simp), Option.map_some, bind, Option.bind,
      ih (fun k hk => hv k (by simp [hk])), pure]

theorem evalTuple_pure (vars : Str → ArgVal) (names : List Str) (st : St) :
    evalTuple (names.map fun n => pureExpr (vars n)) st = (names.map vars, st) := by
  induction names with
  | nil => rfl
  | cons n names ih => simp [evalTuple, pureExpr, ih]

theorem evalTuple_length (es : List (Expr St)) (st : St) : (evalTuple es st).1.length = es.length := by
  induction es generalizing st with
  | nil => rfl
  | cons e es ih => simp [evalTuple, ih]

theorem lookup_ours_none {locals : List (Ident × Val)} (hl : ∀ b ∈ locals, b.1.site = .callers) (name : String) :
    locals.lookup (ours name) = none := by
  rw [List.lookup_eq_none_iff]
  intro b hb
  have := hl b hb
  simp only [ne_eq, bne_iff_ne]
  intro e
  have e2 : (ours name).site = b.1.site := congrArg Ident.site e
  rw [this] at e2
  exact (nomatch e2)

/-- The scope inside the closure. -/
def insideScope (sc : Scope) (c : Tuples) : Scope :=
  { sc with locals :=
      (ours "__stylish_formatter", .refMut .formatter) ::
      (ours "__stylish_implicit_named_args", .tuple (c.implicit.map fun v => .ref (.arg v))) ::
      (ours "__stylish_named_args", .tuple (c.named.map fun v => .ref (.arg v))) ::
      (ours "__stylish_positional_args", .tuple (c.positional.map fun v => .ref (.arg v))) :: sc.locals }

theorem inside (sc : Scope) (h : CallSite sc) (c : Tuples) : Inside (insideScope sc c) c where
  positional := by
    unfold insideScope
    rw [lookup_push _ (by decide +kernel), lookup_push _ (by decide +kernel), lookup_push _ (by decide +kernel),
      lookup_top]
  named := by
    unfold insideScope
    rw [lookup_push _ (by decide +kernel), lookup_push _ (by decide +kernel), lookup_top]
  implicit := by
    unfold insideScope
    rw [lookup_push _ (by decide +kernel), lookup_top]
  formatter := by
    unfold insideScope
    rw [lookup_top]
  someFree := by
    unfold insideScope
    rw [lookup_push _ (by decide +kernel), lookup_push _ (by decide +kernel), lookup_push _ (by decide +kernel),
      lookup_push _ (by decide +kernel)]
    exact lookup_ours_none h.1 _
  free := h.2

/-- What is generated: all of it, given the statements and the captured variables. -/
def whole (positional named : List Y) (implicit : List Str) (statements : List (RExpr Y)) : RExpr Y :=
  .struct [str "Arguments"] [str "f"] [
    .ref (.matchTuple (.tuple [.tuple (positional.map fun e => .ref (.user e)),
        .tuple (named.map fun e => .ref (.user e)),
        .tuple (implicit.map fun name => .ref (.ident ⟨name, .callers⟩))])
      [ours "__stylish_positional_args", ours "__stylish_named_args", ours "__stylish_implicit_named_args"]
      (.closure (ours "__stylish_formatter") [str "Formatter"] (body statements)))]

theorem eval_whole (u : UserExprs Y St) (sc : Scope) (hsc : CallSite sc) (m : Y → Expr St)
    (types : Y → FormatTrait → Bool) (hu : ExprsMean u sc m types)
    (vars : Str → TypedVal) (positional named : List Y) (implicit : List Str)
    (hv : ∀ n ∈ implicit, sc.lookup ⟨n, .callers⟩ = some (.arg (vars n))) (statements : List (RExpr Y))
    (st st1 st2 : St) (pos nam : List ArgVal) (h1 : evalTuple (positional.map m) st = (pos, st1))
    (h2 : evalTuple (named.map m) st1 = (nam, st2)) :
    eval u sc (whole positional named implicit statements) st =
      ((eval (fun _ _ _ => none) (insideScope sc ⟨typed types positional pos, typed types named nam, implicit.map vars⟩) (body statements) st2).bind fun r =>
        (closureOf r.1).bind fun v => (makeArguments [(str "f", .ref v)]).map fun a => (.arguments a, st2)) := by
  have hbf : ∀ (locals : List (Ident × Val)) (i : Ident), i.name ∈ reserved → ∀ v,
      (Scope.mk locals sc.items sc.defaultTrait).bind i v = some ⟨(i, v) :: locals, sc.items, sc.defaultTrait⟩ :=
    fun locals i hi v => bind_free (sc := ⟨locals, sc.items, sc.defaultTrait⟩) (hsc.2 _ hi) v
  have hb : ∀ a b c : Val, sc.bindAll
      [ours "__stylish_positional_args", ours "__stylish_named_args", ours "__stylish_implicit_named_args"] [a, b, c] =
      some ⟨(ours "__stylish_implicit_named_args", c) :: (ours "__stylish_named_args", b) ::
        (ours "__stylish_positional_args", a) :: sc.locals, sc.items, sc.defaultTrait⟩ := by
    intro a b c
    simp only [Scope.bindAll]
    rw [show sc.bind (ours "__stylish_positional_args") a = _ from hbf sc.locals _ (by decide +kernel) a,
      Option.bind_some, hbf _ (ours "__stylish_named_args") (by decide +kernel), Option.bind_some,
      hbf _ (ours "__stylish_implicit_named_args") (by decide +kernel), Option.bind_some]
  unfold whole
  simp only [eval, evalList, eval_users u sc m types hsc.1 hu, eval_vars u sc vars implicit hv, Option.bind_eq_bind,
    Option.bind_some, pure, h1, h2, hb, paramOf_formatter, makeStruct_arguments]
  rw [hbf _ (ours "__stylish_formatter") (by decide +kernel)]
  simp only [Option.bind_some, insideScope]
  rcases eval (fun _ _ _ => none) _ (body statements) st2 with _ | ⟨v, s⟩
  · rfl
  · simp only [Option.bind_some]
    rcases closureOf v with _ | w
    · rfl
    · simp only [Option.bind_some, List.zip_cons_cons, List.zip_nil_left]
      rcases makeArguments [(str "f", .ref w)] with _ | a <;> rfl

/-- The generated code and the expansion of Model/Expand.lean. -/
def SameCode (t : RExpr Y) (x : Expansion Y) : Prop :=
  ∀ {St : Type} (u : UserExprs Y St) (sc : Scope), CallSite sc → ∀ (m : Y → Expr St) (types : Y → FormatTrait → Bool),
    ExprsMean u sc m types →
    ∀ vars : Str → TypedVal, (∀ n ∈ x.implicit, sc.lookup ⟨n, .callers⟩ = some (.arg (vars n))) →
    Implements x types vars →
    (∀ s ∈ x.statements, StmtNeeds sc s) → ∀ st,
    eval u sc t st = some (.arguments ((x.mapArgs m).eval (fun n => pureExpr (vars n).value) st).1,
      ((x.mapArgs m).eval (fun n => pureExpr (vars n).value) st).2)

theorem typed_get (types : Y → FormatTrait → Bool) (es : List Y) (vs : List ArgVal) (h : vs.length = es.length) (i : Nat)
    (hi : i < es.length) : ∃ v, (typed types es vs)[i]? = some v ∧ ∃ e, es[i]? = some e ∧ v.impls = types e := by
  unfold typed
  refine ⟨⟨vs[i], types es[i]⟩, ?_, es[i], by simp, rfl⟩
  simp [hi, h]

/-- The values the statements refer to are there, and implement their traits. -/
theorem filled_of_slots {x : Expansion Y} {types : Y → FormatTrait → Bool} {vars : Str → TypedVal}
    (hi : Implements x types vars) {pos nam : List ArgVal} (l1 : pos.length = x.positional.length)
    (l2 : nam.length = x.named.length)
    (h : ∀ slot tr a d, Stmt.arg slot tr a d ∈ x.statements →
      SlotIn x.positional.length x.named.length x.implicit.length slot) :
    ∀ s ∈ x.statements, StmtFilled ⟨typed types x.positional pos, typed types x.named nam, x.implicit.map vars⟩ s := by
  intro s hs
  cases s with
  | lit => trivial
  | arg slot tr a d =>
    have h1 := h slot tr a d hs
    have h2 := hi slot tr a d hs
    cases slot with
    | positional i =>
      obtain ⟨v, hv, e, he, ht⟩ := typed_get types x.positional pos l1 i h1
      exact ⟨v, hv, by rw [ht]; exact h2 e he⟩
    | named i =>
      obtain ⟨v, hv, e, he, ht⟩ := typed_get types x.named nam l2 i h1
      exact ⟨v, hv, by rw [ht]; exact h2 e he⟩
    | implicit i =>
      have h1 : i < x.implicit.length := h1
      refine ⟨vars x.implicit[i], ?_, h2 _ (by simp)⟩
      simp [Tuples.get, h1]

theorem agree_impl (E : Env) (input : ArgsInput Y) :
    Agree SameCode (formatArgsImpl E input) (Stylish.formatArgsImpl E input) := by
  unfold formatArgsImpl Stylish.formatArgsImpl
  refine Agree.bind (agree_refl (P := (· = ·)) _ (fun _ => rfl)) ?_
  rintro ps _ rfl
  have hp := agree_pieces (Y := Y) input.positionalArgs.length (input.namedArgs.map Prod.fst) ⟨[], [], [], 0⟩ ps
  rcases hg : genPieces input.positionalArgs.length (input.namedArgs.map Prod.fst) ⟨[], [], [], 0⟩ ps with e | ⟨ss, gs⟩
  · rw [hg] at hp
    rcases ht : pieces (Y := Y) input.positionalArgs.length (input.namedArgs.map Prod.fst) ⟨[], [], [], 0⟩ ps with e' | ts
    · rw [ht] at hp
      obtain rfl : e' = e := hp
      simp only [bind, Except.bind, hg, ht]
      exact rfl
    · rw [ht] at hp; exact hp.elim
  · rw [hg] at hp
    rcases ht : pieces (Y := Y) input.positionalArgs.length (input.namedArgs.map Prod.fst) ⟨[], [], [], 0⟩ ps
      with e' | ⟨ts, gs'⟩
    · rw [ht] at hp; exact hp.elim
    · rw [ht] at hp
      obtain ⟨rfl, hp⟩ : gs' = gs ∧ _ := hp
      simp only [bind, Except.bind, hg, ht]
      by_cases hu : hasUnused input.positionalArgs.length (input.namedArgs.map Prod.fst) gs' = true
      · rw [if_pos hu, if_pos hu]; exact rfl
      · rw [if_neg hu, if_neg hu]
        intro St u sc hsc m types hm vars hv himp hn st
        have hslots := (genPieces_slots _ _ _ _ _ _ hg).1
        rcases h1 : evalTuple (input.positionalArgs.map m) st with ⟨pos, st1⟩
        rcases h2 : evalTuple ((input.namedArgs.map Prod.snd).map m) st1 with ⟨nam, st2⟩
        have hw := eval_whole u sc hsc m types hm vars input.positionalArgs (input.namedArgs.map Prod.snd) gs'.implicit hv
          ts st st1 st2 pos nam h1 h2
        have l1 : pos.length = input.positionalArgs.length := by
          have := evalTuple_length (input.positionalArgs.map m) st
          rw [h1] at this; simpa using this
        have l2 : nam.length = (input.namedArgs.map Prod.snd).length := by
          have := evalTuple_length ((input.namedArgs.map Prod.snd).map m) st1
          rw [h2] at this; simpa using this
        obtain ⟨K, hK, eK⟩ := hp _ _ (inside sc hsc ⟨typed types input.positionalArgs pos,
            typed types (input.namedArgs.map Prod.snd) nam, gs'.implicit.map vars⟩)
          (fun x hx => by
            have := hn x hx
            cases x with
            | lit => trivial
            | arg slot tr a d => exact this)
          (filled_of_slots himp l1 l2 (by
            intro slot tr a d hs
            have := hslots slot tr a d hs
            cases slot with
            | positional => exact this
            | named => simpa [SlotIn] using this
            | implicit => exact this))
        rw [hK (fun _ _ _ => none) st2] at hw
        simp only [whole, List.map_map] at hw
        rw [show (fun e => RExpr.ref (RExpr.user e)) ∘ (Prod.snd : Str × Y → Y) =
          fun e => RExpr.ref (RExpr.user e.2) from rfl] at hw
        rw [hw]
        have hval : (Tuples.mk (typed types input.positionalArgs pos) (typed types (input.namedArgs.map Prod.snd) nam)
            (gs'.implicit.map vars)).values = ⟨pos, nam, gs'.implicit.map fun n => (vars n).value⟩ := by
          unfold Tuples.values
          rw [typed_values _ _ _ l1, typed_values _ _ _ l2, List.map_map]
          rfl
        simp only [Option.bind_some, closureOf, makeArguments, if_pos, Option.map_some, Expansion.eval,
          Expansion.mapArgs, h1, h2, evalTuple_pure (fun n => (vars n).value), eK, hval]

/-! ### Code that does not compile -/

/-- The code does not compile in such places. -/
def Dead (P : Scope → Prop) (t : RExpr Y) : Prop :=
  ∀ {St : Type} (u : UserExprs Y St) (sc : Scope) (st : St), P sc → eval u sc t st = none

theorem dead_list {P : Scope → Prop} {t : RExpr Y} (h : Dead P t) {es : List (RExpr Y)} (hm : t ∈ es)
    (u : UserExprs Y St) (sc : Scope) (st : St) (hp : P sc) : evalList u sc es st = none := by
  induction es generalizing st with
  | nil => cases hm
  | cons e es ih =>
    simp only [evalList]
    cases hm with
    | head => rw [h u sc st hp]; rfl
    | tail _ hm =>
      rcases eval u sc e st with _ | ⟨v, st'⟩
      · rfl
      · simp only [bind, Option.bind, ih hm]

theorem dead_call {P : Scope → Prop} {t : RExpr Y} (h : Dead P t) {es : List (RExpr Y)} (hm : t ∈ es) (p : List String) :
    Dead P (.call (path p) es) := by
  intro St u sc st hp
  simp only [path, eval, dead_list h hm u sc st hp, bind, Option.bind]

theorem dead_named {P : Scope → Prop} {t : RExpr Y} (h : Dead P t) {es : List (RExpr Y)} (hm : t ∈ es) (i : Ident) :
    Dead P (.call (.ident i) es) := by
  intro St u sc st hp
  simp only [eval, dead_list h hm u sc st hp, bind, Option.bind]

theorem dead_ref {P : Scope → Prop} {t : RExpr Y} (h : Dead P t) : Dead P (.ref t) := by
  intro St u sc st hp
  simp only [eval, h u sc st hp, bind, Option.bind]

theorem dead_refMut {P : Scope → Prop} {t : RExpr Y} (h : Dead P t) : Dead P (.refMut t) := by
  intro St u sc st hp
  simp only [eval, h u sc st hp, bind, Option.bind]

/-- Places that stay so when a variable of the macro is introduced. -/
def Stable (P : Scope → Prop) : Prop :=
  ∀ (sc : Scope) (name : Str) (v : Val), name ∈ reserved → P sc →
    P { sc with locals := (⟨name, .ours⟩, v) :: sc.locals }

theorem bind_stable {P : Scope → Prop} (hP : Stable P) {sc sc' : Scope} {name : Str} {v : Val} (hr : name ∈ reserved)
    (hp : P sc) (h : sc.bind ⟨name, .ours⟩ v = some sc') : P sc' := by
  unfold Scope.bind at h
  split at h
  · cases h
  · cases h
  · obtain rfl := Option.some.inj h
    exact hP sc name v hr hp

theorem dead_set {P : Scope → Prop} (hP : Stable P) {t : RExpr Y} (h : Dead P t) (f : Str) (e : RExpr Y) :
    Dead P (.setField (ours "diff") f e t) := by
  intro St u sc st hp
  simp only [eval]
  rcases eval u sc e st with _ | ⟨w, st1⟩
  · rfl
  · simp only [bind, Option.bind]
    rcases sc.locals.lookup (ours "diff") with _ | v
    · rfl
    · simp only
      rcases v.set f w with _ | v'
      · rfl
      · exact h u _ st1 (hP sc (str "diff") v' (by decide +kernel) hp)

theorem dead_set_value {P : Scope → Prop} {e : RExpr Y} (h : Dead P e) (f : Str) (t : RExpr Y) :
    Dead P (.setField (ours "diff") f e t) := by
  intro St u sc st hp
  simp only [eval, h u sc st hp, bind, Option.bind]

theorem dead_let {P : Scope → Prop} (hP : Stable P) {t : RExpr Y} (h : Dead P t) (e : RExpr Y) :
    Dead P (.letMut (ours "diff") e t) := by
  intro St u sc st hp
  simp only [eval]
  rcases eval u sc e st with _ | ⟨w, st1⟩
  · rfl
  · simp only [bind, Option.bind]
    rcases hb : sc.bind (ours "diff") w with _ | sc'
    · rfl
    · exact h u sc' st1 (bind_stable hP (by decide +kernel) hp hb)

theorem dead_let_value {P : Scope → Prop} {e : RExpr Y} (h : Dead P e) (t : RExpr Y) :
    Dead P (.letMut (ours "diff") e t) := by
  intro St u sc st hp
  simp only [eval, h u sc st hp, bind, Option.bind]

theorem dead_body {P : Scope → Prop} {t : RExpr Y} (h : Dead P t) {ts : List (RExpr Y)} (hm : t ∈ ts) :
    Dead P (body ts) := by
  induction ts with
  | nil => cases hm
  | cons s ts ih =>
    intro St u sc st hp
    simp only [body, eval]
    cases hm with
    | head => rw [h u sc st hp]; rfl
    | tail _ hm =>
      rcases eval u sc s st with _ | ⟨v, st'⟩
      · rfl
      · simp only [bind, Option.bind, ih hm u sc st' hp]

theorem bindAll_stable {P : Scope → Prop} (hP : Stable P) (names : List Str) (hr : ∀ n ∈ names, n ∈ reserved)
    {sc sc' : Scope} {vs : List Val} (hp : P sc)
    (h : sc.bindAll (names.map fun n => ⟨n, .ours⟩) vs = some sc') : P sc' := by
  induction names generalizing sc vs with
  | nil =>
    cases vs with
    | nil => cases h; exact hp
    | cons => cases h
  | cons n names ih =>
    cases vs with
    | nil => cases h
    | cons v vs =>
      simp only [List.map_cons, Scope.bindAll] at h
      rcases hb : sc.bind ⟨n, .ours⟩ v with _ | sc1
      · rw [hb] at h; cases h
      · rw [hb] at h
        exact ih (fun k hk => hr k (by simp [hk])) (bind_stable hP (hr n (by simp)) hp hb) h

theorem dead_closure {P : Scope → Prop} (hP : Stable P) {t : RExpr Y} (h : Dead P t) (type : List Str) :
    Dead P (.closure (ours "__stylish_formatter") type t) := by
  intro St u sc st hp
  simp only [eval, bind, Option.bind]
  rcases paramOf type with _ | v
  · rfl
  · simp only
    rcases hb : sc.bind (ours "__stylish_formatter") v with _ | sc'
    · rfl
    · simp only [h _ sc' st (bind_stable hP (by decide +kernel) hp hb)]

theorem dead_matchTuple {P : Scope → Prop} (hP : Stable P) {t : RExpr Y} (h : Dead P t) (e : RExpr Y) :
    Dead P (.matchTuple e
      [ours "__stylish_positional_args", ours "__stylish_named_args", ours "__stylish_implicit_named_args"] t) := by
  intro St u sc st hp
  simp only [eval, bind, Option.bind]
  rcases eval u sc e st with _ | ⟨v, st1⟩
  · rfl
  · cases v
    case tuple vs =>
      simp only
      rcases hb : sc.bindAll
        [ours "__stylish_positional_args", ours "__stylish_named_args", ours "__stylish_implicit_named_args"] vs
        with _ | sc'
      · rfl
      · exact h u sc' st1 (bindAll_stable hP (["__stylish_positional_args", "__stylish_named_args",
          "__stylish_implicit_named_args"].map str) (by decide +kernel) hp hb)
    all_goals rfl

theorem dead_struct {P : Scope → Prop} {t : RExpr Y} (h : Dead P t) (p names : List Str) {es : List (RExpr Y)}
    (hm : t ∈ es) : Dead P (.struct p names es) := by
  intro St u sc st hp
  simp only [eval, dead_list h hm u sc st hp, bind, Option.bind]

theorem dead_whole {P : Scope → Prop} (hP : Stable P) (a b : List Y) (c : List Str) {ts : List (RExpr Y)}
    (h : Dead P (body ts)) : Dead P (whole a b c ts) :=
  dead_struct (dead_ref (dead_matchTuple hP (dead_closure hP h _) _)) _ _ (List.mem_singleton.2 rfl)

/-- The trait `Default` is not in scope. -/
def NoDefault (sc : Scope) : Prop := sc.defaultTrait = false

/-- `Some` is not in scope. -/
def NoSome (sc : Scope) : Prop := sc.locals.lookup (ours "Some") = none ∧ sc.items (str "Some") = none

theorem noDefault_stable : Stable NoDefault := fun _ _ _ _ h => h

theorem noSome_stable : Stable NoSome := by
  intro sc name v hr h
  refine ⟨?_, h.2⟩
  show List.lookup _ ((_, v) :: sc.locals) = none
  have h0 : ∀ n ∈ reserved, (ours "Some" == Ident.mk n .ours) = false := by decide +kernel
  rw [lookup_push v (h0 name hr)]
  exact h.1

theorem dead_default : Dead (Y := Y) NoDefault (.call (path ["StyleDiff", "default"]) []) := by
  intro St u sc st hp
  have : callExport sc (["StyleDiff", "default"].map str) [] = none := by
    unfold callExport
    rw [if_neg]
    intro h
    have h2 := h.2 (by decide +kernel)
    rw [show sc.defaultTrait = false from hp] at h2
    cases h2
  simp only [path, eval, evalList, bind, Option.bind, this]

theorem dead_someCall (es : List (RExpr Y)) : Dead NoSome (.call (.ident (ours "Some")) es) := by
  intro St u sc st hp
  have : ∀ vs, sc.callByName (ours "Some") vs = none := by
    intro vs
    unfold Scope.callByName
    rw [hp.1]
    have h2 : sc.items (ours "Some").name = none := hp.2
    simp only [h2]
  simp only [eval, bind, Option.bind, this]
  rcases evalList u sc es st with _ | _ <;> rfl

theorem dead_assign {A : Type} (field : String) (tok : A → Compile (RExpr Y)) (a : A) (rest t : RExpr Y)
    (h : assign field tok (some a) rest = .ok t) : Dead NoSome t := by
  unfold assign at h
  rcases ht : tok a with _ | e <;> simp only [ht] at h
  · cases h
  · obtain rfl := Except.ok.inj h
    exact dead_set_value (dead_someCall _) _ _

theorem dead_assign_rest {A : Type} {P : Scope → Prop} (hP : Stable P) (field : String) (tok : A → Compile (RExpr Y))
    (o : Option A) (rest t : RExpr Y) (hr : Dead P rest) (h : assign field tok o rest = .ok t) : Dead P t := by
  unfold assign at h
  cases o with
  | none => obtain rfl := Except.ok.inj h; exact hr
  | some a =>
    rcases ht : tok a with _ | e <;> simp only [ht] at h
    · cases h
    · obtain rfl := Except.ok.inj h
      exact dead_set hP hr _ _

theorem styleDiff_ok {d : StyleDiff} {t : RExpr Y} (h : styleDiff d = .ok t) :
    ∃ t1 t2 t3, assign "intensity" intensity d.intensity (.ident (ours "diff")) = .ok t1 ∧
      assign "background" color d.background t1 = .ok t2 ∧ assign "foreground" color d.foreground t2 = .ok t3 ∧
      t = .letMut (ours "diff") (.call (path ["StyleDiff", "default"]) []) t3 := by
  unfold styleDiff at h
  simp only [bind, Except.bind] at h
  split at h
  · cases h
  · split at h
    · cases h
    · split at h
      · cases h
      · exact ⟨_, _, _, by assumption, by assumption, by assumption, (Except.ok.inj h).symm⟩

theorem dead_styleDiff_default {d : StyleDiff} {t : RExpr Y} (h : styleDiff d = .ok t) : Dead NoDefault t := by
  obtain ⟨t1, t2, t3, -, -, -, rfl⟩ := styleDiff_ok h
  exact dead_let_value dead_default _

theorem dead_styleDiff_some {d : StyleDiff} {t : RExpr Y} (h : styleDiff d = .ok t) (hd : d ≠ StyleDiff.default) :
    Dead NoSome t := by
  obtain ⟨t1, t2, t3, h1, h2, h3, rfl⟩ := styleDiff_ok h
  apply dead_let noSome_stable
  rcases hf : d.foreground with _ | f
  · rcases hb : d.background with _ | b
    · rcases hi : d.intensity with _ | i
      · exact absurd (by cases d; simp_all [StyleDiff.default]) hd
      · rw [hi] at h1
        exact dead_assign_rest noSome_stable _ _ _ _ _
          (dead_assign_rest noSome_stable _ _ _ _ _ (dead_assign _ _ _ _ _ h1) h2) h3
    · rw [hb] at h2
      exact dead_assign_rest noSome_stable _ _ _ _ _ (dead_assign _ _ _ _ _ h2) h3
  · rw [hf] at h3
    exact dead_assign _ _ _ _ _ h3

/-- A local variable of this name cannot be introduced. -/
def NotFree (name : String) (sc : Scope) : Prop := ¬ Free sc (str name)

theorem notFree_stable (name : String) : Stable (NotFree name) := fun _ _ _ _ h => h

theorem bind_notFree {sc : Scope} {name : String} (h : NotFree name sc) (v : Val) :
    sc.bind (ours name) v = none := by
  unfold Scope.bind
  unfold NotFree Free at h
  show (match sc.items (str name) with | some (.constant _) => _ | some (.constructor _) => _ | _ => _) = _
  rcases e : sc.items (str name) with _ | _ | _ | _ <;> rw [e] at h
  · exact absurd trivial h
  · exact absurd trivial h

theorem dead_closure_name (type : List Str) (t : RExpr Y) :
    Dead (NotFree "__stylish_formatter") (.closure (ours "__stylish_formatter") type t) := by
  intro St u sc st hp
  simp only [eval, bind, Option.bind, bind_notFree hp]
  rcases paramOf type with _ | v <;> rfl

theorem dead_let_name (e t : RExpr Y) : Dead (NotFree "diff") (.letMut (ours "diff") e t) := by
  intro St u sc st hp
  simp only [eval, bind, Option.bind, bind_notFree hp]
  rcases eval u sc e st with _ | v <;> rfl

theorem dead_match_name (e t : RExpr Y) (name : String) : Dead (NotFree name) (.matchIdent e (ours name) t) := by
  intro St u sc st hp
  simp only [eval, bind, Option.bind, bind_notFree hp]
  rcases eval u sc e st with _ | v <;> rfl

theorem bindAll_notFree (names : List String) (name : String) (hm : name ∈ names) {sc : Scope} (h : NotFree name sc)
    (vs : List Val) : sc.bindAll (names.map ours) vs = none := by
  induction names generalizing sc vs with
  | nil => cases hm
  | cons n names ih =>
    cases vs with
    | nil => rfl
    | cons v vs =>
      simp only [List.map_cons, Scope.bindAll]
      cases hm with
      | head => rw [bind_notFree h]; rfl
      | tail _ hm =>
        rcases hb : sc.bind (ours n) v with _ | sc'
        · rfl
        · refine ih hm ?_ vs
          unfold Scope.bind at hb
          split at hb
          · cases hb
          · cases hb
          · obtain rfl := Option.some.inj hb
            exact h

theorem dead_matchTuple_name (e t : RExpr Y) (names : List String) (name : String) (hm : name ∈ names) :
    Dead (NotFree name) (.matchTuple e (names.map ours) t) := by
  intro St u sc st hp
  simp only [eval, bind, Option.bind]
  rcases eval u sc e st with _ | ⟨v, st1⟩
  · rfl
  · cases v
    case tuple vs => simp only [bindAll_notFree names name hm hp]
    all_goals rfl

/-- The names that are bound in all generated code. -/
theorem dead_whole_name (a b : List Y) (c : List Str) (ts : List (RExpr Y)) (name : String)
    (hm : name ∈ ["__stylish_positional_args", "__stylish_named_args", "__stylish_implicit_named_args",
      "__stylish_formatter"]) : Dead (NotFree name) (whole a b c ts) := by
  refine dead_struct (dead_ref ?_) _ _ (List.mem_singleton.2 rfl)
  by_cases hf : name = "__stylish_formatter"
  · subst hf
    exact dead_matchTuple (notFree_stable _) (dead_closure_name _ _) _
  · refine dead_matchTuple_name _ _
      ["__stylish_positional_args", "__stylish_named_args", "__stylish_implicit_named_args"] name ?_
    simp only [List.mem_cons, List.not_mem_nil, or_false] at hm ⊢
    rcases hm with h | h | h | h
    · exact .inl h
    · exact .inr (.inl h)
    · exact .inr (.inr h)
    · exact absurd h hf

theorem dead_styleDiff_name {d : StyleDiff} {t : RExpr Y} (h : styleDiff d = .ok t) : Dead (NotFree "diff") t := by
  obtain ⟨t1, t2, t3, -, -, -, rfl⟩ := styleDiff_ok h
  exact dead_let_name _ _

theorem dead_arg_name {tr : FormatTrait} {e t : RExpr Y} (h : arg tr e = .ok t) (htr : tr ≠ .Stylish) :
    Dead (NotFree "__stylish_arg") t := by
  have key : ∀ (name p : String), Dead (NotFree "__stylish_arg") (.call (path [p]) [.struct [str "StdFmt"] [str "f"] [
      .ref (.matchIdent e (ours "__stylish_arg")
        (.closure (ours "__stylish_formatter") [str "fmt", str "Formatter"]
          (.call (path ["fmt", name, "fmt"])
            [.ident (ours "__stylish_arg"), .ident (ours "__stylish_formatter")])))]]) := fun name p =>
    dead_call (dead_struct (dead_ref (dead_match_name _ _ _)) _ _ (List.mem_singleton.2 rfl))
      (List.mem_singleton.2 rfl) _
  cases tr
  case Stylish => exact (fun _ _ _ _ => False.elim (htr rfl))
  all_goals
    obtain rfl := Except.ok.inj h
    intro St u sc st hp
    exact key _ _ u sc st hp

/-- What a statement cannot do without. -/
def DeadStmt (t : RExpr Y) : Stmt → Prop
  | .lit _ => True
  | .arg _ tr _ d => Dead NoDefault t ∧ (d ≠ StyleDiff.default → Dead NoSome t) ∧ Dead (NotFree "diff") t ∧
      (tr ≠ .Stylish → Dead (NotFree "__stylish_arg") t)

theorem dead_piece (n : Nat) (names : List Str) (st : GenState) (p : Piece) :
    Agree (fun (t : RExpr Y × GenState) (s : Stmt × GenState) => t.2 = s.2 ∧ DeadStmt t.1 s.1)
      (piece n names st p) (genPiece n names st p) := by
  cases p with
  | Lit l => exact ⟨rfl, trivial⟩
  | Arg a =>
    unfold piece genPiece
    refine Agree.bind (agree_refl (P := (· = ·)) (resolveRef n names st a.arg) (fun _ => rfl)) ?_
    rintro ⟨s, st1⟩ _ rfl
    have ha := agree_arg (Y := Y) a.formatSpec.formatTrait (slot s)
    have hn := fun t => dead_arg_name (Y := Y) (tr := a.formatSpec.formatTrait) (e := slot s) (t := t)
    refine Agree.bind (P := fun t1 tr' => tr' = a.formatSpec.formatTrait ∧
      (a.formatSpec.formatTrait ≠ .Stylish → Dead (NotFree "__stylish_arg") t1)) ?_ ?_
    · rcases e1 : arg (Y := Y) a.formatSpec.formatTrait (slot s) with e | t1 <;>
        rcases e2 : argTokens a.formatSpec.formatTrait with e' | tr' <;> rw [e1, e2] at ha
      · exact ha
      · exact ha.elim
      · exact ha.elim
      · exact ⟨ha.1, hn t1 e1⟩
    rintro t1 _ ⟨rfl, h1⟩
    refine Agree.bind (agree_formatterArgs a.formatSpec.formatterArgs) ?_
    intro t2 fa h2
    have hd := agree_styleDiff (Y := Y) a.formatSpec.style
    rcases e1 : styleDiff (Y := Y) a.formatSpec.style with e | t3 <;>
      rcases e2 : styleDiffTokens a.formatSpec.style with e' | d <;> rw [e1, e2] at hd
    · exact hd
    · exact hd.elim
    · exact hd.elim
    · obtain ⟨rfl, -⟩ := hd
      have hmem : t3 ∈ [RExpr.ident (ours "__stylish_formatter"), t2, t3] := by simp
      exact ⟨rfl, dead_call (dead_refMut (dead_call (dead_styleDiff_default e1) hmem _)) (List.mem_cons_of_mem _ (List.mem_singleton.2 rfl)) _,
        fun hd => dead_call (dead_refMut (dead_call (dead_styleDiff_some e1 hd) hmem _)) (List.mem_cons_of_mem _ (List.mem_singleton.2 rfl)) _,
        dead_call (dead_refMut (dead_call (dead_styleDiff_name e1) hmem _)) (List.mem_cons_of_mem _ (List.mem_singleton.2 rfl)) _,
        fun htr => dead_call (dead_ref (h1 htr)) (List.mem_cons_self ..) _⟩

theorem dead_pieces (n : Nat) (names : List Str) (st : GenState) (ps : List Piece) :
    Agree (fun (t : List (RExpr Y) × GenState) (s : List Stmt × GenState) => t.2 = s.2 ∧
      ∀ x ∈ s.1, ∃ y ∈ t.1, DeadStmt y x) (pieces n names st ps) (genPieces n names st ps) := by
  induction ps generalizing st with
  | nil => exact ⟨rfl, fun x hx => (nomatch hx)⟩
  | cons p ps ih =>
    unfold pieces genPieces
    refine Agree.bind (dead_piece n names st p) ?_
    rintro ⟨t, st1⟩ ⟨s, _⟩ ⟨rfl, h1⟩
    refine Agree.bind (ih st1) ?_
    rintro ⟨ts, st2⟩ ⟨ss, _⟩ ⟨rfl, h2⟩
    refine ⟨rfl, fun x hx => ?_⟩
    rcases List.mem_cons.1 hx with rfl | hx
    · exact ⟨t, by simp, h1⟩
    · obtain ⟨y, hy, hd⟩ := h2 x hx
      exact ⟨y, by simp [hy], hd⟩

/-- The generated code, where the names it uses are missing. -/
def DeadCode (t : RExpr Y) (x : Expansion Y) : Prop :=
  (∀ name ∈ ["__stylish_positional_args", "__stylish_named_args", "__stylish_implicit_named_args",
      "__stylish_formatter"], Dead (NotFree name) t) ∧
  ∀ slot tr a d, Stmt.arg slot tr a d ∈ x.statements →
    Dead NoDefault t ∧ (d ≠ StyleDiff.default → Dead NoSome t) ∧ Dead (NotFree "diff") t ∧
      (tr ≠ .Stylish → Dead (NotFree "__stylish_arg") t)

theorem dead_impl (E : Env) (input : ArgsInput Y) :
    Agree DeadCode (formatArgsImpl E input) (Stylish.formatArgsImpl E input) := by
  unfold formatArgsImpl Stylish.formatArgsImpl
  refine Agree.bind (agree_refl (P := (· = ·)) _ (fun _ => rfl)) ?_
  rintro ps _ rfl
  refine Agree.bind (dead_pieces _ _ _ _) ?_
  rintro ⟨ts, gs⟩ ⟨ss, _⟩ ⟨rfl, hp⟩
  simp only
  split
  · exact rfl
  · have key0 : ∀ name ∈ ["__stylish_positional_args", "__stylish_named_args", "__stylish_implicit_named_args",
        "__stylish_formatter"], Dead (NotFree name)
        (whole input.positionalArgs (input.namedArgs.map Prod.snd) gs.implicit ts) := fun name hn =>
      dead_whole_name input.positionalArgs (input.namedArgs.map Prod.snd) gs.implicit ts name hn
    simp only [whole, List.map_map] at key0
    refine ⟨key0, fun slot tr a d hm => ?_⟩
    obtain ⟨y, hy, h1, h2, h3, h4⟩ := hp _ hm
    have key : ∀ P : Scope → Prop, Stable P → Dead P y →
        Dead P (whole input.positionalArgs (input.namedArgs.map Prod.snd) gs.implicit ts) :=
      fun P hP h => dead_whole hP _ _ _ (dead_body h hy)
    simp only [whole, List.map_map] at key
    exact ⟨key _ noDefault_stable h1, fun hd => key _ noSome_stable (h2 hd), key _ (notFree_stable _) h3,
      fun htr => key _ (notFree_stable _) (h4 htr)⟩

/-! ### Traits that are not implemented -/

/-- The code does not compile in this place. -/
def DeadIn (sc : Scope) (t : RExpr Y) : Prop := ∀ {St : Type} (u : UserExprs Y St) (st : St), eval u sc t st = none

theorem deadIn_iff {sc : Scope} {t : RExpr Y} : DeadIn sc t ↔ Dead (fun s => s = sc) t := by
  constructor
  · rintro h St u _ st rfl
    exact h u st
  · intro h St u st
    exact h u sc st rfl

theorem dead_stdFmt (name p : String) (tr : FormatTrait) (i : Nat)
    (hk : functionPaths.findIdx? (fun x => ["fmt", name, "fmt"].map str == x) = some i)
    (hf : (functions[i]?).map Prod.snd = some (fnStdFmt tr)) (sc : Scope) (e : RExpr Y) (v : TypedVal)
    (hi : v.impls tr = false) (he : MeansIn sc e (.ref (.arg v))) (h1 : Free sc (str "__stylish_arg"))
    (h2 : Free sc (str "__stylish_formatter")) :
    DeadIn sc (.call (path [p]) [.struct [str "StdFmt"] [str "f"] [
      .ref (.matchIdent e (ours "__stylish_arg")
        (.closure (ours "__stylish_formatter") [str "fmt", str "Formatter"]
          (.call (path ["fmt", name, "fmt"])
            [.ident (ours "__stylish_arg"), .ident (ours "__stylish_formatter")])))]]) := by
  intro St u st
  have hc : ∀ sc vs, callExport sc (["fmt", name, "fmt"].map str) vs = fnStdFmt tr vs := fun sc vs =>
    callExport_at sc _ i _ vs (by simp only [List.map_cons, List.headD_cons]; decide +kernel)
      (by simp only [List.map_cons, List.getLastD_cons, List.map_nil, List.getLastD_nil]; decide +kernel) hk hf
  have h2' : Free { sc with locals := (ours "__stylish_arg", Val.ref (.arg v)) :: sc.locals } (str "__stylish_formatter") := h2
  simp only [path, eval, evalList, he u st, bind, Option.bind, pure, bind_free (i := ours "__stylish_arg") h1,
    paramOf_std, bind_free (i := ours "__stylish_formatter") h2', Scope.lookup, lookup_top, lookup_push _ arg_ne_formatter,
    Option.map_some, hc, fnStdFmt, hi, Bool.false_eq_true, if_false]

theorem dead_arg_trait (tr : FormatTrait) (e : RExpr Y) :
    Agree (fun t tr' => tr' = tr ∧ ∀ sc v, v.impls tr = false → MeansIn sc e (.ref (.arg v)) → Free sc (str "__stylish_arg") →
      Free sc (str "__stylish_formatter") → MeansIn sc t (.ref (.arg v)) ∧ tr = .Stylish ∨ DeadIn sc t)
      (arg tr e) (argTokens tr) := by
  cases tr
  case Stylish => exact ⟨rfl, fun sc v hi he _ _ => .inl ⟨he, rfl⟩⟩
  case Debug => exact ⟨rfl, fun sc v hi he h1 h2 => .inr (dead_stdFmt "Debug" _ .Debug 9 (by decide +kernel) rfl sc e v hi he h1 h2)⟩
  case Display => exact ⟨rfl, fun sc v hi he h1 h2 => .inr (dead_stdFmt _ _ _ 8 (by decide +kernel) rfl sc e v hi he h1 h2)⟩
  case Octal => exact ⟨rfl, fun sc v hi he h1 h2 => .inr (dead_stdFmt _ _ _ 10 (by decide +kernel) rfl sc e v hi he h1 h2)⟩
  case LowerHex => exact ⟨rfl, fun sc v hi he h1 h2 => .inr (dead_stdFmt _ _ _ 11 (by decide +kernel) rfl sc e v hi he h1 h2)⟩
  case UpperHex => exact ⟨rfl, fun sc v hi he h1 h2 => .inr (dead_stdFmt _ _ _ 12 (by decide +kernel) rfl sc e v hi he h1 h2)⟩
  case Pointer => exact ⟨rfl, fun sc v hi he h1 h2 => .inr (dead_stdFmt _ _ _ 13 (by decide +kernel) rfl sc e v hi he h1 h2)⟩
  case Binary => exact ⟨rfl, fun sc v hi he h1 h2 => .inr (dead_stdFmt _ _ _ 14 (by decide +kernel) rfl sc e v hi he h1 h2)⟩
  case LowerExp => exact ⟨rfl, fun sc v hi he h1 h2 => .inr (dead_stdFmt _ _ _ 15 (by decide +kernel) rfl sc e v hi he h1 h2)⟩
  case UpperExp => exact ⟨rfl, fun sc v hi he h1 h2 => .inr (dead_stdFmt _ _ _ 16 (by decide +kernel) rfl sc e v hi he h1 h2)⟩

theorem fnDisplayFmt_none (v : TypedVal) (hi : v.impls .Stylish = false) (w : Val) :
    fnDisplayFmt [.ref (.ref (.arg v)), w] = none := by
  cases w
  case refMut w =>
    cases w
    case subFormatter => simp [fnDisplayFmt, Val.display, hi]
    all_goals rfl
  all_goals rfl

theorem dead_display {sc : Scope} {t1 : RExpr Y} {v : TypedVal} (hm : MeansIn sc t1 (.ref (.arg v)))
    (hi : v.impls .Stylish = false) (e : RExpr Y) : DeadIn sc (.call (path ["Display", "fmt"]) [.ref t1, e]) := by
  intro St u st
  simp only [path, eval, evalList, hm u st, bind, Option.bind, pure, callExport_displayFmt]
  rcases eval u sc e st with _ | ⟨w, st'⟩
  · rfl
  · simp only [fnDisplayFmt_none v hi]

/-- A value is missing the trait of the statement. -/
def StmtBroken (c : Tuples) : Stmt → Prop
  | .lit _ => False
  | .arg slot tr _ _ => ∃ v, c.get slot = some v ∧ v.impls tr = false

theorem dead_piece_trait (n : Nat) (names : List Str) (st : GenState) (p : Piece) :
    Agree (fun (t : RExpr Y × GenState) (s : Stmt × GenState) => t.2 = s.2 ∧ ∀ sc c, Inside sc c → StmtBroken c s.1 →
      DeadIn sc t.1) (piece n names st p) (genPiece n names st p) := by
  cases p with
  | Lit l => exact ⟨rfl, fun sc c _ hb => hb.elim⟩
  | Arg a =>
    unfold piece genPiece
    refine Agree.bind (agree_refl (P := (· = ·)) (resolveRef n names st a.arg) (fun _ => rfl)) ?_
    rintro ⟨s, st1⟩ _ rfl
    refine Agree.bind (dead_arg_trait a.formatSpec.formatTrait (slot s)) ?_
    rintro t1 _ ⟨rfl, h1⟩
    refine Agree.bind (agree_formatterArgs a.formatSpec.formatterArgs) ?_
    intro t2 fa h2
    refine Agree.bind (agree_styleDiff a.formatSpec.style) ?_
    rintro t3 _ ⟨rfl, h3⟩
    refine ⟨rfl, fun sc c hin hb St u st => ?_⟩
    obtain ⟨v, hv, hi⟩ := hb
    have hf : ∀ name ∈ reserved, Free sc name := hin.free
    rcases h1 sc v hi (means_slot hin s v hv) (hf _ (by decide +kernel)) (hf _ (by decide +kernel)) with ⟨hm, htr⟩ | hd
    · rw [htr] at hi
      exact dead_display hm hi _ u st
    · exact (deadIn_iff.2 (dead_call (dead_ref (deadIn_iff.1 hd)) (List.mem_cons_self ..) _)) u st

theorem dead_pieces_trait (n : Nat) (names : List Str) (st : GenState) (ps : List Piece) :
    Agree (fun (t : List (RExpr Y) × GenState) (s : List Stmt × GenState) => t.2 = s.2 ∧ ∀ sc c, Inside sc c →
      (∃ x ∈ s.1, StmtBroken c x) → DeadIn sc (body t.1)) (pieces n names st ps) (genPieces n names st ps) := by
  induction ps generalizing st with
  | nil => exact ⟨rfl, fun sc c _ ⟨x, hx, _⟩ => (nomatch hx)⟩
  | cons p ps ih =>
    unfold pieces genPieces
    refine Agree.bind (dead_piece_trait n names st p) ?_
    rintro ⟨t, st1⟩ ⟨s, _⟩ ⟨rfl, h1⟩
    refine Agree.bind (ih st1) ?_
    rintro ⟨ts, st2⟩ ⟨ss, _⟩ ⟨rfl, h2⟩
    refine ⟨rfl, fun sc c hin hb => ?_⟩
    obtain ⟨x, hx, hb⟩ := hb
    intro St u st
    simp only [body, eval]
    rcases List.mem_cons.1 hx with rfl | hx
    · rw [h1 sc c hin hb u st]; rfl
    · rcases eval u sc t st with _ | ⟨v, st'⟩
      · rfl
      · simp only [bind, Option.bind, h2 sc c hin ⟨x, hx, hb⟩ u st']

/-- The generated code, where a trait is not implemented. -/
def TraitCode (t : RExpr Y) (x : Expansion Y) : Prop :=
  ∀ {St : Type} (u : UserExprs Y St) (sc : Scope), CallSite sc → ∀ (m : Y → Expr St) (types : Y → FormatTrait → Bool),
    ExprsMean u sc m types →
    ∀ vars : Str → TypedVal, (∀ n ∈ x.implicit, sc.lookup ⟨n, .callers⟩ = some (.arg (vars n))) →
    ¬ Implements x types vars → ∀ st, eval u sc t st = none

theorem broken_of_not {x : Expansion Y} {types : Y → FormatTrait → Bool} {vars : Str → TypedVal}
    (hi : ¬ Implements x types vars) {pos nam : List ArgVal} (l1 : pos.length = x.positional.length)
    (l2 : nam.length = x.named.length) :
    ∃ s ∈ x.statements, StmtBroken ⟨typed types x.positional pos, typed types x.named nam, x.implicit.map vars⟩ s := by
  have lt_of : ∀ {A : Type} {l : List A} {i : Nat} {a : A}, l[i]? = some a → i < l.length := by
    intro A l i a h
    rcases Nat.lt_or_ge i l.length with h' | h'
    · exact h'
    · rw [List.getElem?_eq_none h'] at h; cases h
  apply Classical.byContradiction
  intro hno
  apply hi
  intro slot tr a d hs
  have hn : ¬ StmtBroken _ _ := fun hb => hno ⟨_, hs, hb⟩
  cases slot with
  | positional i =>
    intro e he
    cases ht : types e tr with
    | true => rfl
    | false =>
      obtain ⟨v, hv, e', he', hv'⟩ := typed_get types x.positional pos l1 i (lt_of he)
      rw [he] at he'
      cases he'
      exact absurd ⟨v, hv, by rw [hv']; exact ht⟩ hn
  | named i =>
    intro e he
    cases ht : types e tr with
    | true => rfl
    | false =>
      obtain ⟨v, hv, e', he', hv'⟩ := typed_get types x.named nam l2 i (lt_of he)
      rw [he] at he'
      cases he'
      exact absurd ⟨v, hv, by rw [hv']; exact ht⟩ hn
  | implicit i =>
    intro n he
    cases ht : (vars n).impls tr with
    | true => rfl
    | false =>
      exact absurd ⟨vars n, by simp [Tuples.get, he], ht⟩ hn

theorem trait_impl (E : Env) (input : ArgsInput Y) :
    Agree TraitCode (formatArgsImpl E input) (Stylish.formatArgsImpl E input) := by
  unfold formatArgsImpl Stylish.formatArgsImpl
  refine Agree.bind (agree_refl (P := (· = ·)) _ (fun _ => rfl)) ?_
  rintro ps _ rfl
  refine Agree.bind (dead_pieces_trait _ _ _ _) ?_
  rintro ⟨ts, gs⟩ ⟨ss, _⟩ ⟨rfl, hp⟩
  simp only
  split
  · exact rfl
  · intro St u sc hsc m types hm vars hv himp st
    rcases h1 : evalTuple (input.positionalArgs.map m) st with ⟨pos, st1⟩
    rcases h2 : evalTuple ((input.namedArgs.map Prod.snd).map m) st1 with ⟨nam, st2⟩
    have hw := eval_whole u sc hsc m types hm vars input.positionalArgs (input.namedArgs.map Prod.snd) gs.implicit hv
      ts st st1 st2 pos nam h1 h2
    have l1 : pos.length = input.positionalArgs.length := by
      have := evalTuple_length (input.positionalArgs.map m) st
      rw [h1] at this; simpa using this
    have l2 : nam.length = (input.namedArgs.map Prod.snd).length := by
      have := evalTuple_length ((input.namedArgs.map Prod.snd).map m) st1
      rw [h2] at this; simpa using this
    have hd : DeadIn _ _ := hp _ _ (inside sc hsc ⟨typed types input.positionalArgs pos,
      typed types (input.namedArgs.map Prod.snd) nam, gs.implicit.map vars⟩) (broken_of_not himp l1 l2)
    rw [hd (fun _ _ _ => none) st2] at hw
    simp only [whole, List.map_map] at hw
    exact hw

end Stylish.Tokens
