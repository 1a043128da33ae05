import Verif.Props.Spelling
import Verif.Props.Api
/-
C66: a nested `format_args!` can be written in place.
-/

namespace Stylish.Props

open Nom Format Spec Spec.Syntax

/-! ## C66 -/

/-- A list of positional and a list of named arguments, as in a call. -/
def callArgs (es : List ArgVal) (ns : List (Str × ArgVal)) : List (MacroArg ArgVal) :=
  es.map .positional ++ ns.map fun p => .named p.1 p.2

/-- The last placeholder of a string is not `{:}` with an alignment character after it (see `C57_fill`). -/
def Seam (t : List PieceSyn) (f : Str) : Prop :=
  ∀ p, t.getLast? = some p → p.emptySpec = true → startsWithAlign f = false

/-- Two pieces of a program, one after the other: the styled characters and the result. -/
def followedBy (p q : List (Char × Style) × Res FmtError Unit) : List (Char × Style) × Res FmtError Unit :=
  (p.1 ++ (if p.2 = .ok () then q.1 else []), if p.2 = .ok () then q.2 else p.2)

/-- The styled characters a program writes, and its result. -/
def shown (d : Disp) (st : Style) (a : FormatterArgs) : List (Char × Style) × Res FmtError Unit :=
  (flatten (writes d st a).1, (writes d st a).2)

theorem mem_of_refs {v w : List PieceSyn} (h : refs 0 v = refs 0 w) (ref : Option ArgRef) (spec : Option SpecSyn)
    (hm : PieceSyn.arg ref spec ∈ v) : PieceSyn.arg ref spec ∈ w := by
  obtain ⟨b, a, e⟩ := List.append_of_mem hm
  have : (bareCount b, ref, spec) ∈ refs 0 v := (mem_refs _ _ _ _ _).2 ⟨b, a, e, (Nat.zero_add _).symm⟩
  rw [h] at this
  obtain ⟨b', a', e', -⟩ := (mem_refs _ _ _ _ _).1 this
  rw [e']; simp

/-- Three format strings put together. -/
theorem three_parts {E : Env} (hE : E.Lawful) (f1 f2 f3 : Str) (t1 t2 t3 : List PieceSyn) (ht1 : Reads E f1 t1)
    (ht2 : Reads E f2 t2) (ht3 : Reads E f3 t3) (es1 es2 es3 : List ArgVal) (ns1 ns2 ns3 : List (Str × ArgVal))
    (scope : Str → ArgVal) (x1 x2 x3 : Arguments)
    (hx1 : formatArgs E f1 (callArgs es1 ns1) scope = .ok x1)
    (hx2 : formatArgs E f2 (callArgs es2 ns2) scope = .ok x2)
    (hx3 : formatArgs E f3 (callArgs es3 ns3) scope = .ok x3)
    (hbare1 : bareCount t1 = es1.length) (hbare2 : bareCount t2 = es2.length)
    (hidx : ∀ ds spec, PieceSyn.arg (some (.index ds)) spec ∉ t2 ++ t3)
    (hn1 : ∀ n ∈ (ns2 ++ ns3).map Prod.fst, ¬ UsesName t1 n)
    (hn2 : ∀ n ∈ (ns1 ++ ns3).map Prod.fst, ¬ UsesName t2 n)
    (hn3 : ∀ n ∈ (ns1 ++ ns2).map Prod.fst, ¬ UsesName t3 n)
    (hl1 : Seam t1 (f2 ++ f3)) (hl2 : Seam t2 f3) :
    ∃ y, formatArgs E (f1 ++ f2 ++ f3) (callArgs (es1 ++ es2 ++ es3) (ns1 ++ ns2 ++ ns3)) scope = .ok y ∧
      ∀ st a, shown (Display.fmt y) st a =
        followedBy (shown (Display.fmt x1) st a)
          (followedBy (shown (Display.fmt x2) st a) (shown (Display.fmt x3) st a)) := by
  obtain ⟨y23, hy23, ho23⟩ := C57_concat hE f2 f3 t2 t3 ht2 ht3 es2 es3 ns2 ns3 scope x2 x3 hx2 hx3 hbare2
    (fun ds spec h => hidx ds spec (List.mem_append_right _ h))
    (fun n h => hn2 n (by rw [List.map_append]; exact List.mem_append_right _ h))
    (fun n h => hn3 n (by rw [List.map_append]; exact List.mem_append_right _ h)) hl2
  obtain ⟨rfl, hd2, hs2⟩ := ht2
  obtain ⟨rfl, hd3, hs3⟩ := ht3
  obtain ⟨v, hv, hrefs, -⟩ := join_reads hd2 hs2 hd3 hs3 hl2
  obtain ⟨y, hy, ho⟩ := C57_concat hE f1 (print t2 ++ print t3) t1 v ht1 hv es1 (es2 ++ es3) ns1 (ns2 ++ ns3) scope
    x1 y23 hx1 hy23 hbare1
    (fun ds spec h => hidx ds spec (mem_of_refs hrefs _ _ h))
    hn1
    (fun n h hu => by
      obtain ⟨spec, hm⟩ := hu
      rcases List.mem_append.1 (mem_of_refs hrefs _ _ hm) with hm | hm
      · exact hn2 n (by rw [List.map_append]; exact List.mem_append_left _ h) ⟨spec, hm⟩
      · exact hn3 n (by rw [List.map_append]; exact List.mem_append_left _ h) ⟨spec, hm⟩)
    hl1
  refine ⟨y, ?_, fun st a => ?_⟩
  · unfold callArgs
    rw [List.append_assoc, List.append_assoc, List.append_assoc]
    exact hy
  · obtain ⟨h1, h2⟩ := ho st a
    obtain ⟨h3, h4⟩ := ho23 st a
    unfold shown followedBy
    rw [h1, h2, h3, h4]

theorem formatArgs_options {E : Env} (hE : E.Lawful) (format : Str) (args : List (MacroArg ArgVal))
    (scope : Str → ArgVal) (x : Arguments) (h : formatArgs E format args scope = .ok x) (st : Style)
    (a b : FormatterArgs) : writes (Display.fmt x) st a = writes (Display.fmt x) st b := by
  obtain ⟨⟨t, ht⟩, ho⟩ := C46_end_to_end hE format args scope x h
  rw [ho t ht, ho t ht]

/-- C66: a `{:s}` placeholder whose argument is itself a `format_args!` can be replaced by the format string of
that `format_args!`, with its arguments put where the argument was: the call still compiles, writes the same
characters in the same styles, and returns the same. The three parts `f1`, `g` and `f2` of the format string are
such that each positional argument has a `{}` (in `f1` and `g`), there are no numbered references from `g` on, and
no part refers to a name that is an argument of another part; and no `{:}` comes to stand before an alignment
character, which does not compile (`C57_fill`). -/
theorem C66_inline {E : Env} (hE : E.Lawful) (f1 g f2 : Str) (t1 tg t2 : List PieceSyn) (ht1 : Reads E f1 t1)
    (htg : Reads E g tg) (ht2 : Reads E f2 t2) (es1 es es2 : List ArgVal) (ns1 ns ns2 : List (Str × ArgVal))
    (scope : Str → ArgVal) (x1 xg x2 : Arguments)
    (hx1 : formatArgs E f1 (callArgs es1 ns1) scope = .ok x1)
    (hxg : formatArgs E g (callArgs es ns) scope = .ok xg)
    (hx2 : formatArgs E f2 (callArgs es2 ns2) scope = .ok x2)
    (hbare1 : bareCount t1 = es1.length) (hbareg : bareCount tg = es.length)
    (hidxg : ∀ ds spec, PieceSyn.arg (some (.index ds)) spec ∉ tg)
    (hidx2 : ∀ ds spec, PieceSyn.arg (some (.index ds)) spec ∉ t2)
    (hn1 : ∀ n ∈ (ns ++ ns2).map Prod.fst, ¬ UsesName t1 n)
    (hng : ∀ n ∈ (ns1 ++ ns2).map Prod.fst, ¬ UsesName tg n)
    (hn2 : ∀ n ∈ (ns1 ++ ns).map Prod.fst, ¬ UsesName t2 n)
    (hl1 : Seam t1 (g ++ f2)) (hlg : Seam tg f2)
    (nested : ArgVal) (hnested : nested.stylish = Display.fmt xg) :
    ∃ y z, formatArgs E (f1 ++ str "{:s}" ++ f2) (callArgs (es1 ++ [nested] ++ es2) (ns1 ++ ns2)) scope = .ok y ∧
      formatArgs E (f1 ++ g ++ f2) (callArgs (es1 ++ es ++ es2) (ns1 ++ ns ++ ns2)) scope = .ok z ∧
      ∀ st a, (writes (Display.fmt y) st a).2 = (writes (Display.fmt z) st a).2 ∧
        flatten (writes (Display.fmt y) st a).1 = flatten (writes (Display.fmt z) st a).1 := by
  obtain ⟨z, hz, hoz⟩ := three_parts hE f1 g f2 t1 tg t2 ht1 htg ht2 es1 es es2 ns1 ns ns2 scope x1 xg x2 hx1 hxg hx2
    hbare1 hbareg (fun ds spec h => (List.mem_append.1 h).elim (hidxg ds spec) (hidx2 ds spec)) hn1 hng hn2 hl1 hlg
  obtain ⟨xs, hxs, hos⟩ := formatArgs_self hE nested scope
  obtain ⟨y, hy, hoy⟩ := three_parts hE f1 (str "{:s}") f2 t1 selfTree t2 ht1 (selfTree_reads E) ht2 es1 [nested] es2
    ns1 [] ns2 scope x1 xs x2 hx1 hxs hx2 hbare1 rfl
    (fun ds spec h => by
      rcases List.mem_append.1 h with h | h
      · simp [selfTree] at h
      · exact hidx2 ds spec h)
    (fun n h => hn1 n (by
      rw [List.nil_append] at h
      rw [List.map_append]; exact List.mem_append_right _ h))
    (fun n h => by rintro ⟨spec, hm⟩; simp [selfTree] at hm)
    (fun n h => hn2 n (by
      rw [List.append_nil] at h
      rw [List.map_append]; exact List.mem_append_left _ h))
    (fun p _ _ => by rfl)
    (fun p hp he => by
      obtain rfl : PieceSyn.arg none (some { ty := .stylish }) = p := by simpa [selfTree] using hp
      have : (PieceSyn.arg none (some { ty := .stylish })).emptySpec = false := by decide
      rw [this] at he; cases he)
  rw [List.append_nil] at hy
  refine ⟨y, z, hy, hz, fun st a => ?_⟩
  have e : shown (Display.fmt xs) st a = shown (Display.fmt xg) st a := by
    unfold shown
    have : writes (Display.fmt xs) st a = writes (Display.fmt xg) st a := by
      rw [show Display.fmt xs = xs.f from rfl, hos, hnested]
      exact formatArgs_options hE _ _ _ _ hxg _ _ _
    rw [this]
  have h := hoy st a
  rw [e, ← hoz st a] at h
  exact ⟨(Prod.mk.inj h).2, (Prod.mk.inj h).1⟩

/-- C66 on an example: `a{}[{:s}]{}` with `format_args!("<{n:(bold)}{}>", …)` nested, and in place. -/
example :
    ((formatArgs asciiEnv (str "<{n:(bold)}{}>") (callArgs [textArg ['y']] [(['n'], textArg ['z'])]) noScope).toOption.bind
      fun xg => (formatArgs asciiEnv (str "a{}[" ++ str "{:s}" ++ str "]{}")
        (callArgs ([textArg ['x']] ++ [⟨fun _ _ => .done .ok, Display.fmt xg⟩] ++ [textArg ['w']]) []) noScope).toOption.map
          fun y => flatten (writes (Display.fmt y) .default .default).1) =
    (formatArgs asciiEnv (str "a{}[" ++ str "<{n:(bold)}{}>" ++ str "]{}")
        (callArgs ([textArg ['x']] ++ [textArg ['y']] ++ [textArg ['w']]) [(['n'], textArg ['z'])]) noScope).toOption.map
          (fun y => flatten (writes (Display.fmt y) .default .default).1) ∧
    ((formatArgs asciiEnv (str "a{}[" ++ str "<{n:(bold)}{}>" ++ str "]{}")
        (callArgs ([textArg ['x']] ++ [textArg ['y']] ++ [textArg ['w']]) [(['n'], textArg ['z'])]) noScope).toOption.map
          (fun y => (flatten (writes (Display.fmt y) .default .default).1).map Prod.fst)) = some (str "ax[<zy>]w") := by
  decide +kernel

end Stylish.Props
