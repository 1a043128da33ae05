import Verif.Lemmas.Tokens
/-
The generated code does not depend on the caller's local variables, except those named in the format string.
-/

namespace Stylish.Tokens

open Format Rust Spec Props

variable {Y St : Type}

mutual
/-- Of the caller's variables at most these are mentioned, and none is bound. -/
def Mentions (cap : List Str) : RExpr Y → Prop
  | .ident i => i.site = .ours ∨ i.name ∈ cap
  | .«export» _ => True
  | .lit _ => True
  | .num _ => True
  | .bool _ => True
  | .user _ => True
  | .ref e => Mentions cap e
  | .refMut e => Mentions cap e
  | .tuple es => MentionsAll cap es
  | .field e _ => Mentions cap e
  | .call f es => (match f with | .ident i => i.site = .ours | .«export» _ => True | _ => False) ∧ MentionsAll cap es
  | .struct _ _ es => MentionsAll cap es
  | .letMut x e rest => x.site = .ours ∧ Mentions cap e ∧ Mentions cap rest
  | .setField x _ e rest => x.site = .ours ∧ Mentions cap e ∧ Mentions cap rest
  | .matchIdent e x rest => x.site = .ours ∧ Mentions cap e ∧ Mentions cap rest
  | .matchTuple e xs rest => (∀ x ∈ xs, x.site = .ours) ∧ Mentions cap e ∧ Mentions cap rest
  | .closure x _ body => x.site = .ours ∧ Mentions cap body
  | .tryThen e rest => Mentions cap e ∧ Mentions cap rest
/-- The same for all of them. -/
def MentionsAll (cap : List Str) : List (RExpr Y) → Prop
  | [] => True
  | e :: es => Mentions cap e ∧ MentionsAll cap es
end

/-- The caller's variables. -/
def callersLocals (sc : Scope) : List (Ident × Val) := sc.locals.filter fun b => b.1.site = .callers

/-- The two places differ in the caller's variables at most. -/
structure Same (cap : List Str) (sc sc' : Scope) : Prop where
  items : sc.items = sc'.items
  default : sc.defaultTrait = sc'.defaultTrait
  ours : ∀ i : Ident, i.site = .ours → sc.locals.lookup i = sc'.locals.lookup i
  captured : ∀ n ∈ cap, sc.lookup ⟨n, .callers⟩ = sc'.lookup ⟨n, .callers⟩

theorem Same.lookup {cap : List Str} {sc sc' : Scope} (h : Same cap sc sc') (i : Ident)
    (hi : i.site = .ours ∨ i.name ∈ cap) : sc.lookup i = sc'.lookup i := by
  obtain ⟨n, s⟩ := i
  cases s with
  | ours =>
    unfold Scope.lookup
    rw [h.ours _ rfl, h.items]
  | callers =>
    rcases hi with hi | hi
    · cases hi
    · exact h.captured n hi

theorem Same.callByName {cap : List Str} {sc sc' : Scope} (h : Same cap sc sc') (i : Ident)
    (hi : i.site = .ours) (vs : List Val) : sc.callByName i vs = sc'.callByName i vs := by
  unfold Scope.callByName
  rw [h.ours i hi, h.items]

theorem Same.callExport {cap : List Str} {sc sc' : Scope} (h : Same cap sc sc') (p : List Str) (vs : List Val) :
    callExport sc p vs = callExport sc' p vs := by
  unfold Rust.callExport
  rw [h.default]

theorem lookup_cons_ne {locals : List (Ident × Val)} {i j : Ident} (v : Val) (h : i.site ≠ j.site) :
    List.lookup i ((j, v) :: locals) = List.lookup i locals := by
  rw [List.lookup_cons]
  have : (i == j) = false := by
    rw [beq_eq_false_iff_ne]
    exact fun e => h (by rw [e])
  rw [this]

theorem Same.push {cap : List Str} {sc sc' : Scope} (h : Same cap sc sc') (x : Ident) (hx : x.site = .ours) (v : Val) :
    Same cap ⟨(x, v) :: sc.locals, sc.items, sc.defaultTrait⟩ ⟨(x, v) :: sc'.locals, sc'.items, sc'.defaultTrait⟩ where
  items := h.items
  default := h.default
  ours i hi := by
    show List.lookup i ((x, v) :: sc.locals) = List.lookup i ((x, v) :: sc'.locals)
    rw [List.lookup_cons, List.lookup_cons, h.ours i hi]
  captured n hn := by
    have h0 : (Ident.mk n .callers).site ≠ x.site := by rw [hx]; exact (fun h => nomatch h)
    have := h.captured n hn
    unfold Scope.lookup at this ⊢
    simp only [lookup_cons_ne v h0]
    exact this

theorem callersLocals_push (sc : Scope) (x : Ident) (hx : x.site = .ours) (v : Val) :
    callersLocals ⟨(x, v) :: sc.locals, sc.items, sc.defaultTrait⟩ = callersLocals sc := by
  unfold callersLocals
  simp [hx]

/-- Introducing a variable of the macro: in both places, or in neither. -/
theorem Same.bind {cap : List Str} {sc sc' : Scope} (h : Same cap sc sc') (x : Ident) (hx : x.site = .ours) (v : Val) :
    (sc.bind x v = none ∧ sc'.bind x v = none) ∨
    ∃ s s', sc.bind x v = some s ∧ sc'.bind x v = some s' ∧ Same cap s s' ∧ callersLocals s = callersLocals sc ∧
      callersLocals s' = callersLocals sc' := by
  unfold Scope.bind
  rw [show sc.items x.name = sc'.items x.name from congrFun h.items _]
  split
  · exact .inl ⟨rfl, rfl⟩
  · exact .inl ⟨rfl, rfl⟩
  · exact .inr ⟨_, _, rfl, rfl, h.push x hx v, callersLocals_push sc x hx v, callersLocals_push sc' x hx v⟩

theorem Same.bindAll {cap : List Str} (xs : List Ident) (hx : ∀ x ∈ xs, x.site = .ours) (vs : List Val)
    {sc sc' : Scope} (h : Same cap sc sc') :
    (sc.bindAll xs vs = none ∧ sc'.bindAll xs vs = none) ∨
    ∃ s s', sc.bindAll xs vs = some s ∧ sc'.bindAll xs vs = some s' ∧ Same cap s s' ∧
      callersLocals s = callersLocals sc ∧ callersLocals s' = callersLocals sc' := by
  induction xs generalizing vs sc sc' with
  | nil =>
    cases vs with
    | nil => exact .inr ⟨_, _, rfl, rfl, h, rfl, rfl⟩
    | cons => exact .inl ⟨rfl, rfl⟩
  | cons x xs ih =>
    cases vs with
    | nil => exact .inl ⟨rfl, rfl⟩
    | cons v vs =>
      simp only [Scope.bindAll]
      rcases h.bind x (hx x (by simp)) v with ⟨h1, h2⟩ | ⟨s, s', h1, h2, hs, e1, e2⟩
      · rw [h1, h2]; exact .inl ⟨rfl, rfl⟩
      · rw [h1, h2]
        rcases ih (fun y hy => hx y (by simp [hy])) vs hs with ⟨h3, h4⟩ | ⟨r, r', h3, h4, hr, e3, e4⟩
        · exact .inl ⟨h3, h4⟩
        · exact .inr ⟨r, r', h3, h4, hr, e3.trans e1, e4.trans e2⟩

/-- The caller's expressions do the same in both places. -/
def SameUsers (u u' : UserExprs Y St) (L L' : List (Ident × Val)) : Prop := ∀ e st, u L e st = u' L' e st

mutual
theorem eval_same {cap : List Str} (t : RExpr Y) (hm : Mentions cap t) {St : Type} (u u' : UserExprs Y St)
    (sc sc' : Scope) (h : Same cap sc sc') (hu : SameUsers u u' (callersLocals sc) (callersLocals sc')) (st : St) :
    eval u sc t st = eval u' sc' t st := by
  match t with
  | .ident i => simp only [eval, h.lookup i hm]
  | .«export» _ => simp only [eval]
  | .lit _ => simp only [eval]
  | .num _ => simp only [eval]
  | .bool _ => simp only [eval]
  | .user e => simp only [eval]; exact hu e st
  | .ref e => simp only [eval, eval_same e hm u u' sc sc' h hu st]
  | .refMut e => simp only [eval, eval_same e hm u u' sc sc' h hu st]
  | .tuple es => simp only [eval, evalList_same es hm u u' sc sc' h hu st]
  | .field e i => simp only [eval, eval_same e hm u u' sc sc' h hu st]
  | .call (.ident i) es => simp only [eval, evalList_same es hm.2 u u' sc sc' h hu st, h.callByName i hm.1]
  | .call (.«export» p) es => simp only [eval, evalList_same es hm.2 u u' sc sc' h hu st, h.callExport]
  | .call (.lit _) es => exact hm.1.elim
  | .call (.num _) es => exact hm.1.elim
  | .call (.bool _) es => exact hm.1.elim
  | .call (.user _) es => exact hm.1.elim
  | .call (.ref _) es => exact hm.1.elim
  | .call (.refMut _) es => exact hm.1.elim
  | .call (.tuple _) es => exact hm.1.elim
  | .call (.field _ _) es => exact hm.1.elim
  | .call (.call _ _) es => exact hm.1.elim
  | .call (.struct _ _ _) es => exact hm.1.elim
  | .call (.letMut _ _ _) es => exact hm.1.elim
  | .call (.setField _ _ _ _) es => exact hm.1.elim
  | .call (.matchIdent _ _ _) es => exact hm.1.elim
  | .call (.matchTuple _ _ _) es => exact hm.1.elim
  | .call (.closure _ _ _) es => exact hm.1.elim
  | .call (.tryThen _ _) es => exact hm.1.elim
  | .struct p names es => simp only [eval, evalList_same es hm u u' sc sc' h hu st]
  | .letMut x e rest =>
    simp only [eval, eval_same e hm.2.1 u u' sc sc' h hu st]
    rcases eval u' sc' e st with _ | ⟨v, st1⟩
    · rfl
    · simp only [Option.bind_eq_bind, Option.bind_some]
      rcases h.bind x hm.1 v with ⟨h1, h2⟩ | ⟨s, s', h1, h2, hs, e1, e2⟩
      · rw [h1, h2]; rfl
      · rw [h1, h2]
        exact eval_same rest hm.2.2 u u' s s' hs (by rw [e1, e2]; exact hu) st1
  | .matchIdent e x rest =>
    simp only [eval, eval_same e hm.2.1 u u' sc sc' h hu st]
    rcases eval u' sc' e st with _ | ⟨v, st1⟩
    · rfl
    · simp only [Option.bind_eq_bind, Option.bind_some]
      rcases h.bind x hm.1 v with ⟨h1, h2⟩ | ⟨s, s', h1, h2, hs, e1, e2⟩
      · rw [h1, h2]; rfl
      · rw [h1, h2]
        exact eval_same rest hm.2.2 u u' s s' hs (by rw [e1, e2]; exact hu) st1
  | .setField x f e rest =>
    simp only [eval, eval_same e hm.2.1 u u' sc sc' h hu st, h.ours x hm.1]
    rcases eval u' sc' e st with _ | ⟨w, st1⟩
    · rfl
    · simp only [Option.bind_eq_bind, Option.bind_some]
      rcases sc'.locals.lookup x with _ | v
      · rfl
      · simp only [Option.bind_some]
        rcases v.set f w with _ | v'
        · rfl
        · exact eval_same rest hm.2.2 u u' _ _ (h.push x hm.1 v')
            (by rw [callersLocals_push sc x hm.1, callersLocals_push sc' x hm.1]; exact hu) st1
  | .matchTuple e xs rest =>
    simp only [eval, eval_same e hm.2.1 u u' sc sc' h hu st]
    rcases eval u' sc' e st with _ | ⟨v, st1⟩
    · rfl
    · simp only [Option.bind_eq_bind, Option.bind_some]
      cases v
      case tuple vs =>
        simp only
        rcases h.bindAll xs hm.1 vs with ⟨h1, h2⟩ | ⟨s, s', h1, h2, hs, e1, e2⟩
        · rw [h1, h2]; rfl
        · rw [h1, h2]
          exact eval_same rest hm.2.2 u u' s s' hs (by rw [e1, e2]; exact hu) st1
      all_goals rfl
  | .closure x type body =>
    simp only [eval]
    rcases paramOf type with _ | p
    · rfl
    · simp only [Option.bind_eq_bind, Option.bind_some]
      rcases h.bind x hm.1 p with ⟨h1, h2⟩ | ⟨s, s', h1, h2, hs, e1, e2⟩
      · rw [h1, h2]
      · simp only [h1, h2, Option.bind_some]
        rw [eval_same body hm.2 (fun _ _ _ => none) (fun _ _ _ => none) s s' hs (fun _ _ => rfl) st]
  | .tryThen e rest =>
    simp only [eval, eval_same e hm.1 u u' sc sc' h hu st]
    rcases eval u' sc' e st with _ | ⟨v, st1⟩
    · rfl
    · simp only [Option.bind_eq_bind, Option.bind_some, eval_same rest hm.2 u u' sc sc' h hu st1]

theorem evalList_same {cap : List Str} (es : List (RExpr Y)) (hm : MentionsAll cap es) {St : Type}
    (u u' : UserExprs Y St) (sc sc' : Scope) (h : Same cap sc sc')
    (hu : SameUsers u u' (callersLocals sc) (callersLocals sc')) (st : St) :
    evalList u sc es st = evalList u' sc' es st := by
  match es with
  | [] => simp only [evalList]
  | e :: es =>
    simp only [evalList, eval_same e hm.1 u u' sc sc' h hu st]
    rcases eval u' sc' e st with _ | ⟨v, st1⟩
    · rfl
    · simp only [Option.bind_eq_bind, Option.bind_some, evalList_same es hm.2 u u' sc sc' h hu st1]
end

/-! ### The generated code -/

theorem mentions_path (cap : List Str) (p : List String) : Mentions (Y := Y) cap (path p) := by
  unfold path Mentions; trivial

theorem mentions_ours (cap : List Str) (name : String) : Mentions (Y := Y) cap (.ident (ours name)) := by
  unfold Mentions; exact .inl rfl

theorem mentions_call {cap : List Str} {p : List String} {es : List (RExpr Y)} (h : MentionsAll cap es) :
    Mentions cap (.call (path p) es) := by
  unfold path Mentions
  exact ⟨trivial, h⟩

theorem mentionsAll_of {cap : List Str} {es : List (RExpr Y)} (h : ∀ e ∈ es, Mentions cap e) : MentionsAll cap es := by
  induction es with
  | nil => unfold MentionsAll; trivial
  | cons e es ih =>
    unfold MentionsAll
    exact ⟨h e (by simp), ih fun e he => h e (by simp [he])⟩

theorem mentions_ref {cap : List Str} {e : RExpr Y} (h : Mentions cap e) : Mentions cap (.ref e) := by
  unfold Mentions; exact h

theorem mentions_quoteOpt {A : Type} (cap : List Str) (tok : A → Compile (RExpr Y))
    (h : ∀ a t, tok a = .ok t → Mentions cap t) (o : Option A) (t : RExpr Y) (ht : quoteOpt tok o = .ok t) :
    Mentions cap t := by
  cases o with
  | none => obtain rfl := Except.ok.inj ht; exact mentions_path _ _
  | some a =>
    unfold quoteOpt at ht
    rcases e : tok a with _ | t' <;> simp only [e] at ht
    · cases ht
    · obtain rfl := Except.ok.inj ht
      exact mentions_call (mentionsAll_of (by simpa using h a t' e))

theorem mentions_color (cap : List Str) (c : Color) (t : RExpr Y) (h : color c = .ok t) : Mentions cap t := by
  cases c <;> first | (cases h; done) | (obtain rfl := Except.ok.inj h; exact mentions_path _ _)

theorem mentions_intensity (cap : List Str) (c : Intensity) (t : RExpr Y) (h : intensity c = .ok t) : Mentions cap t := by
  cases c <;> (obtain rfl := Except.ok.inj h; exact mentions_path _ _)

theorem mentions_assign {A : Type} (cap : List Str) (field : String) (tok : A → Compile (RExpr Y))
    (h : ∀ a t, tok a = .ok t → Mentions cap t) (o : Option A) (rest t : RExpr Y) (hr : Mentions cap rest)
    (ht : assign field tok o rest = .ok t) : Mentions cap t := by
  cases o with
  | none => obtain rfl := Except.ok.inj ht; exact hr
  | some a =>
    unfold assign at ht
    rcases e : tok a with _ | t' <;> simp only [e] at ht
    · cases ht
    · obtain rfl := Except.ok.inj ht
      unfold Mentions
      refine ⟨rfl, ?_, hr⟩
      unfold Mentions
      exact ⟨rfl, mentionsAll_of (by simpa using h a t' e)⟩

theorem mentions_styleDiff (cap : List Str) (d : StyleDiff) (t : RExpr Y) (h : styleDiff d = .ok t) :
    Mentions cap t := by
  obtain ⟨t1, t2, t3, h1, h2, h3, rfl⟩ := styleDiff_ok h
  have m1 := mentions_assign cap _ _ (mentions_intensity cap) _ _ _ (mentions_ours cap _) h1
  have m2 := mentions_assign cap _ _ (mentions_color cap) _ _ _ m1 h2
  have m3 := mentions_assign cap _ _ (mentions_color cap) _ _ _ m2 h3
  unfold Mentions
  exact ⟨rfl, mentions_call (mentionsAll_of (by simp)), m3⟩

theorem mentions_formatterArgs (cap : List Str) (a : MFormatterArgs) (t : RExpr Y) (h : formatterArgs a = .ok t) :
    Mentions cap t := by
  unfold formatterArgs at h
  simp only [bind, Except.bind] at h
  have hc : ∀ (c : Count) (t : RExpr Y), count c = .ok t → Mentions cap t := by
    intro c t h
    cases c with
    | Parameter => cases h
    | Integer v => obtain rfl := Except.ok.inj h; apply mentions_ref; unfold Mentions; trivial
  split at h
  · cases h
  rename_i t1 e1
  split at h
  · cases h
  rename_i t2 e2
  split at h
  · cases h
  rename_i t3 e3
  split at h
  · cases h
  rename_i t4 e4
  split at h
  · cases h
  rename_i t5 e5
  obtain rfl := Except.ok.inj h
  apply mentions_ref
  unfold Mentions
  have m1 := mentions_quoteOpt cap align
    (by intro a t h; cases a <;> (obtain rfl := Except.ok.inj h; exact mentions_path _ _)) _ _ e1
  have m2 := mentions_quoteOpt cap sign
    (by intro a t h; cases a <;> (obtain rfl := Except.ok.inj h; exact mentions_path _ _)) _ _ e2
  have m3 := mentions_quoteOpt cap count hc _ _ e3
  have m4 := mentions_quoteOpt cap count hc _ _ e4
  have m5 := mentions_quoteOpt cap debugHex
    (by intro a t h; cases a <;> (obtain rfl := Except.ok.inj h; exact mentions_path _ _)) _ _ e5
  refine ⟨m1, m2, ?_, ?_, m3, m4, m5, trivial⟩ <;> (unfold Mentions; trivial)

theorem mentions_slot (cap : List Str) (s : Slot) : Mentions (Y := Y) cap (slot s) := by
  cases s <;> (unfold slot Mentions; exact mentions_ours _ _)

theorem mentions_arg (cap : List Str) (tr : FormatTrait) (e t : RExpr Y) (he : Mentions cap e) (h : arg tr e = .ok t) :
    Mentions cap t := by
  have key : ∀ (name p : String), Mentions cap (.call (path [p]) [.struct [str "StdFmt"] [str "f"] [
      .ref (.matchIdent e (ours "__stylish_arg")
        (.closure (ours "__stylish_formatter") [str "fmt", str "Formatter"]
          (.call (path ["fmt", name, "fmt"])
            [.ident (ours "__stylish_arg"), .ident (ours "__stylish_formatter")])))]]) := by
    intro name p
    apply mentions_call
    refine ⟨?_, trivial⟩
    unfold Mentions
    refine ⟨?_, trivial⟩
    apply mentions_ref
    unfold Mentions
    refine ⟨rfl, he, ?_⟩
    unfold Mentions
    exact ⟨rfl, mentions_call ⟨mentions_ours _ _, mentions_ours _ _, trivial⟩⟩
  cases tr
  case Stylish => obtain rfl := Except.ok.inj h; exact he
  all_goals
    obtain rfl := Except.ok.inj h
    exact key _ _

theorem mentions_piece (cap : List Str) (n : Nat) (names : List Str) (st : GenState) (p : Piece)
    (r : RExpr Y × GenState) (h : piece n names st p = .ok r) : Mentions cap r.1 := by
  cases p with
  | Lit l =>
    obtain rfl := Except.ok.inj h
    exact mentions_call ⟨mentions_ours _ _, by unfold Mentions; trivial, trivial⟩
  | Arg a =>
    unfold piece at h
    simp only [bind, Except.bind] at h
    split at h
    · cases h
    rename_i r1 e1
    split at h
    · cases h
    rename_i t1 h1
    split at h
    · cases h
    rename_i t2 h2
    split at h
    · cases h
    rename_i t3 h3
    obtain rfl := Except.ok.inj h
    exact mentions_call ⟨mentions_ref (mentions_arg cap _ _ _ (mentions_slot _ _) h1),
      mentions_ref (mentions_call ⟨mentions_ours _ _, mentions_formatterArgs _ _ _ h2, mentions_styleDiff _ _ _ h3,
        trivial⟩), trivial⟩

theorem mentions_pieces (cap : List Str) (n : Nat) (names : List Str) (ps : List Piece) (st : GenState)
    (r : List (RExpr Y) × GenState) (h : pieces n names st ps = .ok r) : Mentions cap (body r.1) := by
  induction ps generalizing st r with
  | nil =>
    obtain rfl := Except.ok.inj h
    exact mentions_call ⟨trivial, trivial⟩
  | cons p ps ih =>
    unfold pieces at h
    simp only [bind, Except.bind] at h
    split at h
    · cases h
    rename_i r1 h1
    split at h
    · cases h
    rename_i r2 h2
    obtain rfl := Except.ok.inj h
    unfold body Mentions
    exact ⟨mentions_piece cap _ _ _ _ _ h1, ih _ _ h2⟩

theorem mentions_impl (E : Env) (input : ArgsInput Y) :
    Agree (fun t x => Mentions x.implicit t) (formatArgsImpl E input) (Stylish.formatArgsImpl E input) := by
  unfold formatArgsImpl Stylish.formatArgsImpl
  refine Agree.bind (agree_refl (P := (· = ·)) _ (fun _ => rfl)) ?_
  rintro ps _ rfl
  refine Agree.bind (P := fun (t : List (RExpr Y) × GenState) (s : List Stmt × GenState) => t.2 = s.2 ∧
    ∀ cap, Mentions cap (body t.1)) ?_ ?_
  · have hp := agree_pieces (Y := Y) input.positionalArgs.length (input.namedArgs.map Prod.fst) ⟨[], [], [], 0⟩ ps
    rcases e1 : pieces (Y := Y) input.positionalArgs.length (input.namedArgs.map Prod.fst) ⟨[], [], [], 0⟩ ps with e | t <;>
      rcases e2 : genPieces input.positionalArgs.length (input.namedArgs.map Prod.fst) ⟨[], [], [], 0⟩ ps with e' | s <;>
      rw [e1, e2] at hp
    · exact hp
    · exact hp.elim
    · exact hp.elim
    · exact ⟨hp.1, fun cap => mentions_pieces cap _ _ _ _ _ e1⟩
  rintro ⟨ts, gs⟩ ⟨ss, _⟩ ⟨rfl, hb⟩
  simp only
  split
  · exact rfl
  · show Mentions gs.implicit _
    have hu : ∀ (A : Type) (l : List A) (f : A → Y),
        Mentions gs.implicit (.tuple (l.map fun e => RExpr.ref (.user (f e)))) := by
      intro A l f
      unfold Mentions
      apply mentionsAll_of
      intro e he
      obtain ⟨a, -, rfl⟩ := List.mem_map.1 he
      apply mentions_ref
      unfold Mentions
      trivial
    have hi : Mentions (Y := Y) gs.implicit (.tuple (gs.implicit.map fun n => .ref (.ident ⟨n, .callers⟩))) := by
      unfold Mentions
      apply mentionsAll_of
      intro e he
      obtain ⟨n, hn, rfl⟩ := List.mem_map.1 he
      apply mentions_ref
      unfold Mentions
      exact .inr hn
    unfold Mentions
    refine ⟨mentions_ref ?_, trivial⟩
    unfold Mentions
    refine ⟨by simp [ours], ?_, ?_⟩
    · unfold Mentions
      exact ⟨hu _ _ id, hu _ _ Prod.snd, hi, trivial⟩
    · unfold Mentions
      exact ⟨rfl, hb _⟩

end Stylish.Tokens
