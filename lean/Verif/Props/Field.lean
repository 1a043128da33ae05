import Verif.Lemmas.Field
import Verif.Props.Api
import Verif.Props.Compiles
import Verif.Props.Vt
/-
C81: width, precision and alignment count what is seen.
-/

namespace Stylish.Props

open Spec Spec.Syntax Spec.Fields

/-- The value as an argument of the macros. -/
def _root_.Stylish.Spec.Fields.Value.arg : Value → ArgVal
  | .text s => .ofStr s
  | .char c => .ofStr [c]
  | .bool b => .ofBool b
  | .int bits n => .ofInt bits n

/-! ### One placeholder -/

theorem argOutput_shows {v : ArgVal} {s : SpecSyn} {shown : Str} (hs : s.ty ≠ .stylish)
    (h : Shows (v.std s.ty.trait (stdView s.ty.stdKind s.options)) shown) (st : Style) :
    ∃ chunks, argOutput v s st = (chunks, .ok ()) ∧ flatten chunks = paint shown (s.style st) := by
  have e : argOutput v s st =
      ((stdWrites (v.std s.ty.trait (stdView s.ty.stdKind s.options))).1.map (fun text => (text, s.style st)),
        (stdWrites (v.std s.ty.trait (stdView s.ty.stdKind s.options))).2) := by
    unfold argOutput
    split
    · rename_i e; exact absurd e hs
    · rfl
  refine ⟨_, e.trans (by rw [h.2]), ?_⟩
  rw [← h.1]
  generalize (stdWrites _).1 = l
  induction l with
  | nil => rfl
  | cons x l ih => simp only [List.map_cons, flatten, List.flatMap_cons, List.flatten_cons, paint, List.map_append] at ih ⊢; rw [ih]

/-- C81: a placeholder writes exactly the field of its value, every character of it, with the spaces and zeros, in the
style of the placeholder. -/
theorem C81_field (v : Value) (s : SpecSyn) (shown : Str) (h : field v s = some shown) (st : Style) :
    ∃ chunks, argOutput v.arg s st = (chunks, .ok ()) ∧ flatten chunks = paint shown (s.style st) := by
  unfold field at h
  split at h <;> first | (cases h; done) | skip
  all_goals
    rename_i hty
    obtain rfl := Option.some.inj h
    refine argOutput_shows (by rw [hty]; intro h; cases h) ?_ st
    rw [hty]
  · exact shows_padStr s _ _
  · exact shows_padStr s _ _
  · exact shows_padStr s _ _
  · exact shows_padStr s _ _
  · exact shows_padStr s _ _
  · exact shows_padStr s _ _
  · exact shows_intDisplay s _ _
  · have e : (stdView Ty.debug.stdKind s.options).debugHex = none := by
      simp [stdView, Ty.stdKind, SpecSyn.options, hty, Ty.debugHex]
    show Shows (intDebug _ _ _) _
    unfold intDebug
    rw [e]
    exact shows_intDisplay s _ _
  · exact (shows_intRadix s _ (by omega) (by omega) _ _ _).1
  · have e : (stdView Ty.lowerHexDebug.stdKind s.options).debugHex = some .Lower := by
      simp [stdView, Ty.stdKind, SpecSyn.options, hty, Ty.debugHex]
    show Shows (intDebug _ _ _) _
    unfold intDebug
    rw [e]
    exact (shows_intRadix s _ (by omega) (by omega) _ _ _).1
  · exact (shows_intRadix s _ (by omega) (by omega) _ _ _).2
  · have e : (stdView Ty.upperHexDebug.stdKind s.options).debugHex = some .Upper := by
      simp [stdView, Ty.stdKind, SpecSyn.options, hty, Ty.debugHex]
    show Shows (intDebug _ _ _) _
    unfold intDebug
    rw [e]
    exact (shows_intRadix s _ (by omega) (by omega) _ _ _).2
  · exact (shows_intRadix s _ (by omega) (by omega) _ _ _).1
  · exact (shows_intRadix s _ (by omega) (by omega) _ _ _).1

/-- The text stands where the alignment says, with nothing but spaces around it. -/
def Stands (usual : Align) (s : SpecSyn) (bare shown : Str) : Prop :=
  ∃ left right, shown = spaces left ++ bare ++ spaces right ∧
    match s.options.align.getD usual with
    | .Left => left = 0
    | .Right => right = 0
    | .Center => left ≤ right ∧ right ≤ left + 1

theorem placed_stands (usual : Align) (s : SpecSyn) (body : Str) :
    placed usual (unpadded s) body = body ∧
    (placed usual s body).length = max (s.options.width.getD 0) body.length ∧
    Stands usual s body (placed usual s body) := by
  refine ⟨?_, ?_, ?_⟩
  · have e : (unpadded s).options.width = none := rfl
    unfold placed
    rw [e]
    cases (unpadded s).options.align.getD usual <;> simp [spaces]
  · unfold placed
    cases s.options.align.getD usual <;> simp [spaces] <;> omega
  · unfold placed Stands
    cases s.options.align.getD usual
    · exact ⟨0, s.options.width.getD 0 - body.length, by simp [spaces], rfl⟩
    · exact ⟨_, _, rfl, by omega, by omega⟩
    · exact ⟨s.options.width.getD 0 - body.length, 0, by simp [spaces], rfl⟩

theorem string_stands (s : SpecSyn) (t : Str) :
    (stringField s t).length = max (s.options.width.getD 0) (stringField (unpadded s) t).length ∧
    Stands .Left s (stringField (unpadded s) t) (stringField s t) := by
  have e : (unpadded s).options.precision = s.options.precision := rfl
  unfold stringField
  rw [e]
  have h := fun body => placed_stands .Left s body
  cases s.options.precision with
  | none => simp only [(h t).1]; exact (h t).2
  | some p => simp only [(h (t.take p)).1]; exact (h (t.take p)).2

theorem number_stands (s : SpecSyn) (negative : Bool) (mark digits : Str) :
    (numberField s negative mark digits).length =
      max (s.options.width.getD 0) (numberField (unpadded s) negative mark digits).length ∧
    (s.zero = false →
      Stands .Right s (numberField (unpadded s) negative mark digits) (numberField s negative mark digits)) := by
  unfold numberField
  simp only [show (unpadded s).sign = s.sign from rfl, show (unpadded s).alternate = s.alternate from rfl,
    show (unpadded s).zero = s.zero from rfl, show (unpadded s).options.width = none from rfl]
  generalize (if negative = true then ['-'] else if s.sign = some .Plus then ['+'] else []) ++
    (if s.alternate = true then mark else []) = lead
  cases s.zero
  · have := placed_stands .Right s (lead ++ digits)
    simp only [Bool.false_eq_true, if_false, this.1]
    exact ⟨this.2.1, fun _ => this.2.2⟩
  · refine ⟨?_, fun h => nomatch h⟩
    simp only [if_true, List.length_append, List.length_replicate, Option.getD_none]
    omega

/-- Where the value stands if the alignment is not said. -/
def usualAlign : Value → Align
  | .int _ _ => .Right
  | _ => .Left

/-- C81: the width is the least number of characters of a field: it is as long as the width or as the value needs,
whichever is more, and unless zeros are asked for the value itself is what it is without a width and stands at the
left, right or in the middle. -/
theorem C81_width (v : Value) (s : SpecSyn) (shown : Str) (h : field v s = some shown) :
    ∃ bare, field v (unpadded s) = some bare ∧ shown.length = max (s.options.width.getD 0) bare.length ∧
      (s.zero = false → Stands (usualAlign v) s bare shown) := by
  have ety : (unpadded s).ty = s.ty := rfl
  unfold field at h
  split at h <;> first | (cases h; done) | skip
  all_goals
    rename_i hty
    obtain rfl := Option.some.inj h
    simp only [field, ety, hty, Option.some.injEq, exists_eq_left']
  · exact ⟨(string_stands s _).1, fun _ => (string_stands s _).2⟩
  · exact ⟨(string_stands s _).1, fun _ => (string_stands s _).2⟩
  · exact ⟨(string_stands s _).1, fun _ => (string_stands s _).2⟩
  · exact ⟨(string_stands s _).1, fun _ => (string_stands s _).2⟩
  · exact ⟨(string_stands s _).1, fun _ => (string_stands s _).2⟩
  · exact ⟨(string_stands s _).1, fun _ => (string_stands s _).2⟩
  all_goals exact number_stands s _ _ _

theorem field_fits {v : Value} {s : SpecSyn} (h : Fits v s) :
    ∃ shown, field v s = some shown ∧ s.options.width = some shown.length := by
  obtain ⟨bare, w, h1, h2, h3⟩ := h
  have : ∃ shown, field v s = some shown := by
    unfold field at h1
    rw [show (unpadded s).ty = s.ty from rfl] at h1
    split at h1 <;> first | (cases h1; done) | skip
    all_goals
      rename_i hty
      simp only [field, hty]
      exact ⟨_, rfl⟩
  obtain ⟨shown, h⟩ := this
  obtain ⟨bare', h4, h5, -⟩ := C81_width v s shown h
  rw [h1] at h4
  obtain rfl := Option.some.inj h4
  rw [h2] at h5
  refine ⟨shown, h, ?_⟩
  rw [h2, h5]
  simp only [Option.getD_some, Option.some.injEq]
  omega

/-! ### Whole format strings -/

theorem valueFor_meaning {X Z : Type} (g : X → Z) (args : List (MacroArg X)) (scope : Str → X) (before : List PieceSyn)
    (ref : Option ArgRef) :
    valueFor (args.map (argMeaning g)) (fun n => g (scope n)) before ref = (valueFor args scope before ref).map g := by
  rcases ref with _ | _ | n
  · simp [valueFor, positionals_meaning]
  · simp [valueFor, positionals_meaning]
  · simp only [valueFor, Option.map_some, Option.some.injEq]
    have : lastNamed (args.map (argMeaning g)) n = (lastNamed args n).map g := by
      unfold lastNamed
      rw [nameds_meaning, List.filter_map, List.getLast?_map]
      simp only [Option.map_map]
      congr 1
    rw [this]
    cases lastNamed args n <;> rfl

theorem treeOutput_row (args : List (MacroArg Value)) (scope : Str → Value) (st : Style) :
    ∀ (t before : List PieceSyn) (r : Styled), row args scope st before t = some r →
      ∃ chunks, treeOutput (args.map (argMeaning Value.arg)) (fun n => (scope n).arg) st before t = (chunks, .ok ()) ∧
        flatten chunks = r
  | [], before, r, h => by
    obtain rfl := Option.some.inj h
    exact ⟨[], rfl, rfl⟩
  | p :: t, before, r, h => by
    simp only [row, bind, Option.bind_eq_some_iff] at h
    obtain ⟨first, h1, others, h2, h3⟩ := h
    obtain rfl := Option.some.inj h3
    obtain ⟨chunks, e, rfl⟩ := treeOutput_row args scope st t _ others h2
    have : ∃ c, pieceOutput (args.map (argMeaning Value.arg)) (fun n => (scope n).arg) before st p = (c, .ok ()) ∧
        flatten c = first := by
      cases p with
      | text s =>
        obtain rfl := Option.some.inj h1
        exact ⟨_, rfl, by simp [flatten]⟩
      | openBrace =>
        obtain rfl := Option.some.inj h1
        exact ⟨_, rfl, by simp [flatten]⟩
      | closeBrace =>
        obtain rfl := Option.some.inj h1
        exact ⟨_, rfl, by simp [flatten]⟩
      | arg ref spec =>
        simp only [cell, bind, Option.bind_eq_some_iff] at h1
        obtain ⟨v, h4, shown, h5, h6⟩ := h1
        obtain rfl := Option.some.inj h6
        simp only [pieceOutput, valueFor_meaning, h4, Option.map_some]
        exact C81_field v _ shown h5 st
    obtain ⟨c, e1, rfl⟩ := this
    refine ⟨c ++ chunks, ?_, by simp [flatten]⟩
    simp only [treeOutput, e1, e]

/-- C81: a format string whose placeholders show std's own values writes exactly the row of their fields. -/
theorem C81_row {E : Env} (hE : E.Lawful) (format : Str) (args : List (MacroArg Value)) (scope : Str → Value)
    (x : Arguments) (h : formatArgs E format (args.map (argMeaning Value.arg)) (fun n => (scope n).arg) = .ok x)
    (t : List PieceSyn) (ht : Reads E format t) (st : Style) (a : FormatterArgs) (r : Styled)
    (hr : row args scope st [] t = some r) :
    ∃ chunks, writes (Display.fmt x) st a = (chunks, .ok ()) ∧ flatten chunks = r := by
  rw [(C46_end_to_end hE format _ _ x h).2 t ht st a]
  exact treeOutput_row args scope st t [] r hr

/-- C81: what is seen of the row: all its characters and nothing else, in plain text, HTML and on a terminal. So its
columns are those of the row, whatever markup and escape sequences there are in between. -/
theorem C81_seen {E : Env} (hE : E.Lawful) (format : Str) (args : List (MacroArg Value)) (scope : Str → Value)
    (x : Arguments) (h : formatArgs E format (args.map (argMeaning Value.arg)) (fun n => (scope n).arg) = .ok x)
    (t : List PieceSyn) (ht : Reads E format t) (r : Styled) (hr : row args scope .default [] t = some r) :
    plainFormat x = .ok (text r) ∧
    (∃ out, htmlFormat x = .ok out ∧ HtmlReader.read out = some r) ∧
    (∃ out, ansiFormat x = .ok out ∧ (ESC ∉ text r → stripSgr out = text r) ∧
      ∀ kind, (∀ c ∈ text r, c ∉ Vt.acts kind) → Vt.chars (Vt.Screen.fresh.feed kind out).events = text r) := by
  obtain ⟨log, h1, rfl⟩ := treeOutput_row args scope .default t [] r hr
  obtain ⟨hp, hh, ⟨out, ha, hs⟩, -⟩ := C46_formats hE format _ _ x h t ht log h1
  refine ⟨hp, hh, out, ha, hs, fun kind hk => ?_⟩
  have hden : denote x = (log, .ok ()) := by
    rw [← h1]
    exact (C46_end_to_end hE format _ _ x h).2 t ht _ _
  rw [ansiFormat_eq, hden] at ha
  obtain rfl := Res.ok.inj ha
  refine ((C71_resets stringSink StdString.new log _ kind ?_).1
    (ansiFinished_exists stringSink stringSink_accepting StdString.new log).2).2.2
  intro y hy
  exact hk y.1 (List.mem_map.2 ⟨y, hy, rfl⟩)

theorem row_lengths (args args' : List (MacroArg Value)) (scope scope' : Str → Value) (st st' : Style)
    (t : List PieceSyn) (h : AllFit args scope t) (h' : AllFit args' scope' t) :
    ∀ (front before back : List PieceSyn), t = before ++ front ++ back →
      ∃ r r', row args scope st before front = some r ∧ row args' scope' st' before front = some r' ∧
        r.length = r'.length
  | [], before, back, e => ⟨[], [], rfl, rfl, rfl⟩
  | p :: front, before, back, e => by
    obtain ⟨r, r', h1, h2, h3⟩ := row_lengths args args' scope scope' st st' t h h' front (before ++ [p]) back
      (by rw [e]; simp)
    have : ∃ c c', cell args scope st before p = some c ∧ cell args' scope' st' before p = some c' ∧
        c.length = c'.length := by
      cases p with
      | text s => exact ⟨_, _, rfl, rfl, by simp [paint]⟩
      | openBrace => exact ⟨_, _, rfl, rfl, by simp [paint]⟩
      | closeBrace => exact ⟨_, _, rfl, rfl, by simp [paint]⟩
      | arg ref spec =>
        have e' : t = before ++ .arg ref spec :: (front ++ back) := by rw [e]; simp
        obtain ⟨v, hv, hf⟩ := h before ref spec _ e'
        obtain ⟨v', hv', hf'⟩ := h' before ref spec _ e'
        obtain ⟨s, hs, hl⟩ := field_fits hf
        obtain ⟨s', hs', hl'⟩ := field_fits hf'
        rw [hl] at hl'
        refine ⟨_, _, by simp only [cell, bind, hv, hs, Option.bind_some]; rfl,
          by simp only [cell, bind, hv', hs', Option.bind_some]; rfl, ?_⟩
        simpa [paint] using Option.some.inj hl'
    obtain ⟨c, c', h4, h5, h6⟩ := this
    refine ⟨c ++ r, c' ++ r', ?_, ?_, by simp [h3, h6]⟩
    · simp only [row, bind, h4, h1, Option.bind_some]
    · simp only [row, bind, h5, h2, Option.bind_some]

theorem row_append (args : List (MacroArg Value)) (scope : Str → Value) (st : Style) (back : List PieceSyn) :
    ∀ (front before : List PieceSyn) (r rest : Styled), row args scope st before front = some r →
      row args scope st (before ++ front) back = some rest → row args scope st before (front ++ back) = some (r ++ rest)
  | [], before, r, rest, h1, h2 => by
    obtain rfl := Option.some.inj h1
    simpa using h2
  | p :: front, before, r, rest, h1, h2 => by
    simp only [row, bind, Option.bind_eq_some_iff] at h1
    obtain ⟨c, e1, r1, e2, e3⟩ := h1
    obtain rfl := Option.some.inj e3
    have := row_append args scope st back front (before ++ [p]) r1 rest e2 (by simpa using h2)
    simp only [List.cons_append, row, bind, e1, this, Option.bind_some, List.append_assoc]

/-- C81: lines made by one format string line up, whatever the values are, if they fit: wherever the format string is
cut between two pieces, what comes before the cut is equally long in both lines, and so is what comes after it. -/
theorem C81_lines_up (front back : List PieceSyn) (args args' : List (MacroArg Value)) (scope scope' : Str → Value)
    (st st' : Style) (h : AllFit args scope (front ++ back)) (h' : AllFit args' scope' (front ++ back)) :
    ∃ r rest r' rest',
      row args scope st [] (front ++ back) = some (r ++ rest) ∧ row args scope st [] front = some r ∧
      row args' scope' st' [] (front ++ back) = some (r' ++ rest') ∧ row args' scope' st' [] front = some r' ∧
      r.length = r'.length ∧ rest.length = rest'.length := by
  obtain ⟨r, r', h1, h2, h3⟩ := row_lengths args args' scope scope' st st' _ h h' front [] back rfl
  obtain ⟨rest, rest', h4, h5, h6⟩ := row_lengths args args' scope scope' st st' _ h h' back front [] (by simp)
  exact ⟨r, rest, r', rest', row_append _ _ _ _ _ _ _ _ h1 h4, h1, row_append _ _ _ _ _ _ _ _ h2 h5, h2, h3, h6⟩

/-! ### Samples -/

/-- A table with a name, a price and a checksum in colours. -/
def tableFormat : Str := str "{:<5(fg=green)}|{:^+7}|{:#06(bold)x}|"

def tableTree : List PieceSyn :=
  [.arg none (some { align := some (none, .Left), width := some (.lit ['5']), attrs := some ⟨[.fg .green], false⟩ }),
   .text ['|'], .arg none (some { align := some (none, .Center), sign := some .Plus, width := some (.lit ['7']) }),
   .text ['|'],
   .arg none (some { alternate := true, zero := true, width := some (.lit ['6']), attrs := some ⟨[.bold], false⟩,
                     ty := .lowerHex }),
   .text ['|']]

def tableLine (name : Str) (n : Int) (sum : Int) : List (MacroArg Value) :=
  [.positional (.text name), .positional (.int 32 n), .positional (.int 8 sum)]

def noValue : Str → Value := fun _ => .bool false

example : Reads asciiEnv tableFormat tableTree := by
  refine ⟨by decide +kernel, ?_, ?_⟩
  · simp [Documented, tableTree, PieceSyn.Documented, SpecSyn.Documented, CountSyn.Documented, Numeral, Merged,
      PieceSyn.isText, AttrsSyn.Documented]
    try decide +kernel
  · simp [Supported, tableTree, PieceSyn.Supported, SpecSyn.Supported, CountSyn.Supported, NoFalseFill]
    try decide +kernel

/-- What two lines look like. -/
example :
    (row (tableLine (str "kiwi") 42 10) noValue .default [] tableTree).map text = some (str "kiwi |  +42  |0x000a|") ∧
    (row (tableLine (str "<é>") (-120) (-1)) noValue .default [] tableTree).map text =
      some (str "<é>  | -120  |0x00ff|") := by decide +kernel

/-- The call is accepted. -/
example :
    let x := formatArgs asciiEnv tableFormat ((tableLine (str "kiwi") 42 10).map (argMeaning Value.arg))
      (fun n => (noValue n).arg)
    x.toOption.map plainFormat = some (.ok (str "kiwi |  +42  |0x000a|")) ∧
    x.toOption.map ansiFormat = some (.ok (str "\x1b[32mkiwi \x1b[0m|  +42  |\x1b[1m0x000a\x1b[0m|")) := by
  decide +kernel

/-- Names of up to 5 characters, numbers of up to 7 and all bytes fit. -/
example : AllFit (tableLine (str "kiwi") 42 10) noValue tableTree ∧
    AllFit (tableLine (str "<é>") (-120) (-1)) noValue tableTree := by
  have key : ∀ before ref spec after, tableTree = before ++ PieceSyn.arg ref spec :: after →
      ∃ n, n < 6 ∧ before = tableTree.take n ∧ tableTree[n]? = some (.arg ref spec) := by
    intro before ref spec after e
    refine ⟨before.length, ?_, ?_, ?_⟩
    · have := congrArg List.length e
      simp [tableTree] at this
      omega
    · rw [e]; simp
    · rw [e]; simp
  constructor
  all_goals
    intro before ref spec after e
    obtain ⟨n, hn, rfl, h2⟩ := key _ _ _ _ e
    match n, hn with
    | 0, _ =>
      simp only [tableTree, List.getElem?_cons_zero, Option.some.injEq, PieceSyn.arg.injEq] at h2
      obtain ⟨rfl, rfl⟩ := h2
      exact ⟨_, rfl, _, 5, rfl, by decide +kernel, by decide +kernel⟩
    | 1, _ => simp [tableTree] at h2
    | 2, _ =>
      simp only [tableTree, List.getElem?_cons_zero, List.getElem?_cons_succ, Option.some.injEq, PieceSyn.arg.injEq] at h2
      obtain ⟨rfl, rfl⟩ := h2
      exact ⟨_, rfl, _, 7, rfl, by decide +kernel, by decide +kernel⟩
    | 3, _ => simp [tableTree] at h2
    | 4, _ =>
      simp only [tableTree, List.getElem?_cons_zero, List.getElem?_cons_succ, Option.some.injEq, PieceSyn.arg.injEq] at h2
      obtain ⟨rfl, rfl⟩ := h2
      exact ⟨_, rfl, _, 6, rfl, by decide +kernel, by decide +kernel⟩
    | 5, _ => simp [tableTree] at h2

/-- A value that does not fit pushes the rest of its line to the right, and is not cut; a precision cuts it. -/
example :
    (row (tableLine (str "pineapple") 42 10) noValue .default [] tableTree).map text =
      some (str "pineapple|  +42  |0x000a|") ∧
    field (.text (str "pineapple")) { width := some (.lit ['5']), precision := some (.count (.lit ['4'])) } =
      some (str "pine ") := by decide +kernel

end Stylish.Props
