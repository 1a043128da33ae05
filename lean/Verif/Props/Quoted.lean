import Verif.Model.StdDebug
import Verif.Spec.Quoted
import Verif.Props.DebugMore
import Verif.Props.Field
import Verif.Props.Pre
/-
C120: texts shown with `{:?}`.
-/

namespace Stylish.Props

open Spec Spec.Syntax Spec.Debug Spec.Quoted

/-- The value as an argument of the macros. -/
def _root_.Stylish.Spec.Quoted.Value.arg (shown : Char → Bool) : Quoted.Value → ArgVal
  | .text s => .ofText shown s
  | .char c => .ofChar shown c
  | .other v => v.arg

namespace Quote

variable (shown : Char → Bool)

theorem shows_putChars {k : StdProg} {t : Str} (s : Str) (h : Shows k t) : Shows (.putChars s k) (s ++ t) := by
  induction s with
  | nil => exact h
  | cons c s ih => exact shows_put [c] ih

theorem escape_single (c : Char) (h : (escapeDebug shown c).length = 1) : escapeDebug shown c = [c] := by
  unfold escapeDebug at h ⊢
  by_cases h0 : c = '\x00'
  · rw [if_pos h0] at h; exact absurd h (by decide)
  rw [if_neg h0] at h ⊢
  by_cases ht : c = '\t'
  · rw [if_pos ht] at h; exact absurd h (by decide)
  rw [if_neg ht] at h ⊢
  by_cases hr : c = '\r'
  · rw [if_pos hr] at h; exact absurd h (by decide)
  rw [if_neg hr] at h ⊢
  by_cases hn : c = '\n'
  · rw [if_pos hn] at h; exact absurd h (by decide)
  rw [if_neg hn] at h ⊢
  by_cases hq : c = '"'
  · rw [if_pos hq] at h; exact absurd h (by decide)
  rw [if_neg hq] at h ⊢
  by_cases hb : c = '\\'
  · rw [if_pos hb] at h; exact absurd h (by decide)
  rw [if_neg hb] at h ⊢
  by_cases hs : shown c = true
  · rw [if_pos hs]
  · rw [if_neg hs] at h
    simp at h

theorem shows_loop {k : StdProg} {t : Str} (h : Shows k t) :
    ∀ s run, Shows (strDebugLoop shown run s k) (run ++ s.flatMap (escapeDebug shown) ++ t) := by
  intro s
  induction s with
  | nil => intro run; simpa [strDebugLoop] using shows_put run h
  | cons c s ih =>
    intro run
    unfold strDebugLoop
    by_cases hc : (escapeDebug shown c).length = 1
    · rw [if_neg (by simpa using hc)]
      have := ih (run ++ [c])
      rw [List.flatMap_cons, escape_single shown c hc]
      simpa using this
    · rw [if_pos hc, List.flatMap_cons, List.append_assoc, List.append_assoc]
      have := shows_put run (shows_putChars (escapeDebug shown c) (ih []))
      simpa using this

theorem shows_strDebug (s : Str) : Shows (strDebug shown s) ('"' :: (s.flatMap (escapeDebug shown) ++ ['"'])) := by
  have := shows_put ['"'] (shows_loop shown (shows_put ['"'] shows_done) s [])
  unfold strDebug
  simpa using this

theorem shows_charDebug (c : Char) : Shows (charDebug shown c) ('\'' :: (escapeCharDebug shown c ++ ['\''])) := by
  have := shows_put ['\''] (shows_putChars (escapeCharDebug shown c) (shows_put ['\''] shows_done))
  unfold charDebug
  simpa using this

theorem hex_clean (n : Nat) : Clean (Nat.toDigits 16 n) := by
  have hd : ∀ n : Fin 16, Vt.isControl n.val.digitChar = false := by decide +kernel
  induction n using Nat.strongRecOn with
  | ind n ih =>
    rw [Nat.toDigits_eq_if (by decide)]
    split
    · rename_i h
      intro c hc
      obtain rfl := List.mem_singleton.1 hc
      exact hd ⟨n, h⟩
    · intro c hc
      rcases List.mem_append.1 hc with hc | hc
      · exact ih (n / 16) (by omega) c hc
      · obtain rfl := List.mem_singleton.1 hc
        exact hd ⟨n % 16, Nat.mod_lt _ (by decide)⟩

theorem escape_clean (hs : ∀ c, shown c = true → Vt.isControl c = false) (c : Char) : Clean (escapeDebug shown c) := by
  unfold escapeDebug
  intro d hd
  repeat' split at hd
  all_goals try (revert hd; revert d; decide)
  · obtain rfl := List.mem_singleton.1 hd
    exact hs _ ‹_›
  · simp only [List.mem_append, List.mem_cons, List.not_mem_nil, or_false] at hd
    rcases hd with ((rfl | rfl | rfl) | h) | rfl
    · decide
    · decide
    · decide
    · exact hex_clean _ _ h
    · decide

theorem str_clean (hs : ∀ c, shown c = true → Vt.isControl c = false) (s : Str) :
    Clean ('"' :: (s.flatMap (escapeDebug shown) ++ ['"'])) := by
  intro d hd
  simp only [List.mem_cons, List.mem_append, List.mem_flatMap, List.not_mem_nil, or_false] at hd
  rcases hd with rfl | ⟨c, -, h⟩ | rfl
  · decide
  · exact escape_clean shown hs c d h
  · decide

theorem char_clean (hs : ∀ c, shown c = true → Vt.isControl c = false) (c : Char) :
    Clean ('\'' :: (escapeCharDebug shown c ++ ['\''])) := by
  intro d hd
  simp only [List.mem_cons, List.mem_append, List.not_mem_nil, or_false] at hd
  rcases hd with rfl | h | rfl
  · decide
  · unfold escapeCharDebug at h
    repeat' split at h
    · revert h; revert d; decide
    · revert h; revert d; decide
    · exact escape_clean shown hs c d h
  · decide

theorem escape_cases (c : Char) : escapeDebug shown c = [c] ∧ c ≠ '\\' ∨
    ∃ r, escapeDebug shown c = '\\' :: r ∧ literal .escape (r ++ ['"']) = some ([c], []) := by
  have key := DebugMore.literal_escape shown c ['"']
  have e : literal .chars ['"'] = some ([], []) := by decide
  rw [e] at key
  by_cases h : escapeDebug shown c = [c] ∧ c ≠ '\\'
  · exact .inl h
  · right
    have : ∃ r, escapeDebug shown c = '\\' :: r := by
      unfold escapeDebug at h ⊢
      repeat' split
      all_goals first
        | exact ⟨_, rfl⟩
        | skip
      simp_all
    obtain ⟨r, hr⟩ := this
    refine ⟨r, hr, ?_⟩
    rw [hr] at key
    exact key

theorem char_literal (c : Char) : charLiteral ('\'' :: (escapeCharDebug shown c ++ ['\''])) = some c := by
  unfold escapeCharDebug
  by_cases h1 : c = '\''
  · subst h1; rfl
  rw [if_neg h1]
  by_cases h2 : c = '"'
  · subst h2; rfl
  rw [if_neg h2]
  rcases escape_cases shown c with ⟨h, hb⟩ | ⟨r, h, hl⟩
  · rw [h]
    simp [charLiteral, hb, h1]
  · rw [h]
    simp [charLiteral, hl]

end Quote

open Quote

/-- C120: with `{:?}`, `{:x?}` or `{:X?}`, whatever the other options, a text or `char` is shown as a literal that means just
it, every character of it in the style of the placeholder, and without control characters; so in one line. (Which characters
are shown as they are is `core`'s decision; control characters are not.) -/
theorem C120_literal (shown : Char → Bool) (hs : ∀ c, shown c = true → Vt.isControl c = false) (v : Quoted.Value) (s : SpecSyn)
    (hv : ∀ u, v ≠ .other u) (h : IsDebug s.ty) (st : Style) :
    ∃ chunks out, argOutput (v.arg shown) s st = (chunks, .ok ()) ∧ flatten chunks = paint out (s.style st) ∧
      Means s out v ∧ Clean out := by
  have hty : s.ty ≠ .stylish := by rcases h with h | h | h <;> rw [h] <;> decide
  have htr : s.ty.trait = .Debug := by rcases h with h | h | h <;> rw [h] <;> rfl
  cases v with
  | text v =>
    obtain ⟨chunks, h1, h2⟩ := argOutput_shows (v := .ofText shown v) hty (by rw [htr]; exact shows_strDebug shown v) st
    exact ⟨chunks, _, h1, h2, ⟨_, rfl, DebugMore.literal_text shown v []⟩, str_clean shown hs v⟩
  | char c =>
    obtain ⟨chunks, h1, h2⟩ := argOutput_shows (v := .ofChar shown c) hty (by rw [htr]; exact shows_charDebug shown c) st
    exact ⟨chunks, _, h1, h2, char_literal shown c, char_clean shown hs c⟩
  | other u => exact absurd rfl (hv u)

theorem Quote.tree_clean (shown : Char → Bool) (hs : ∀ c, shown c = true → Vt.isControl c = false)
    (args : List (MacroArg Quoted.Value)) (scope : Str → Quoted.Value) (st : Style) (t : List PieceSyn)
    (ht : Careful args scope t) : ∀ (after before : List PieceSyn), t = before ++ after →
      ∃ log, treeOutput (args.map (argMeaning (Quoted.Value.arg shown))) (fun n => (scope n).arg shown) st before after =
        (log, .ok ()) ∧ Clean (text (flatten log))
  | [], before, _ => ⟨[], rfl, by simp [Clean, text, flatten]⟩
  | p :: after, before, e => by
    obtain ⟨log, h1, h2⟩ := tree_clean shown hs args scope st t ht after (before ++ [p]) (by rw [e]; simp)
    have hp := ht before p after e
    have : ∃ c, pieceOutput (args.map (argMeaning (Quoted.Value.arg shown))) (fun n => (scope n).arg shown) before st p =
        (c, .ok ()) ∧ Clean (text (flatten c)) := by
      cases p with
      | text s => exact ⟨_, rfl, by simpa [text, flatten, paint, Function.comp_def] using hp⟩
      | openBrace => exact ⟨_, rfl, by simp [text, flatten, paint, Clean]; decide⟩
      | closeBrace => exact ⟨_, rfl, by simp [text, flatten, paint, Clean]; decide⟩
      | arg ref spec =>
        obtain ⟨v, hv, hp⟩ := hp
        have ew : ∀ (w : Str) (s : Style), text (paint w s) = w := by intro w s; simp [text, paint, Function.comp_def]
        have hval := valueFor_meaning (Quoted.Value.arg shown) args scope before ref
        simp only [pieceOutput, hval, hv, Option.map_some]
        cases v with
        | other u =>
          obtain ⟨w, h3, h4⟩ := hp
          obtain ⟨c, h5, h6⟩ := C81_field u _ w h3 st
          exact ⟨c, h5, by rw [h6, ew]; exact h4⟩
        | text u =>
          obtain ⟨c, w, h5, h6, -, h7⟩ := C120_literal shown hs (.text u) (specOf spec) (by simp) hp st
          exact ⟨c, h5, by rw [h6, ew]; exact h7⟩
        | char u =>
          obtain ⟨c, w, h5, h6, -, h7⟩ := C120_literal shown hs (.char u) (specOf spec) (by simp) hp st
          exact ⟨c, h5, by rw [h6, ew]; exact h7⟩
    obtain ⟨c, h3, h4⟩ := this
    refine ⟨c ++ log, by simp only [treeOutput, h3, h1], ?_⟩
    have e2 : text (flatten (c ++ log)) = text (flatten c) ++ text (flatten log) := by simp [text, flatten]
    rw [e2]
    intro d hd
    rcases List.mem_append.1 hd with hd | hd
    · exact h4 d hd
    · exact h2 d hd

/-- C120: so if all texts and `char`s are shown with `{:?}`, and there are no control characters in the format string itself,
then there are none in what is written, whatever the texts. -/
theorem C120_clean (shown : Char → Bool) (hs : ∀ c, shown c = true → Vt.isControl c = false) {E : Env} (hE : E.Lawful)
    (format : Str) (args : List (MacroArg Quoted.Value)) (scope : Str → Quoted.Value) (x : Arguments)
    (h : formatArgs E format (args.map (argMeaning (Quoted.Value.arg shown))) (fun n => (scope n).arg shown) = .ok x)
    (t : List PieceSyn) (ht : Reads E format t) (hc : Careful args scope t) (st : Style) (a : FormatterArgs) :
    ∃ log, writes (Display.fmt x) st a = (log, .ok ()) ∧ Clean (text (flatten log)) := by
  rw [(C46_end_to_end hE format _ _ x h).2 t ht st a]
  exact Quote.tree_clean shown hs args scope st t hc t [] rfl

/-- C120: then a terminal shows just these characters, each in its style, whatever the texts (also if they are themselves
escape sequences), and does nothing else; without escape sequences there is just one line, and just these characters. The
terminals are those of C71: with or without C1 controls; if bold and faint do not exclude each other there is to be no direct
change between them. -/
theorem C120_terminal (shown : Char → Bool) (hs : ∀ c, shown c = true → Vt.isControl c = false) {E : Env} (hE : E.Lawful)
    (format : Str) (args : List (MacroArg Quoted.Value)) (scope : Str → Quoted.Value) (x : Arguments)
    (h : formatArgs E format (args.map (argMeaning (Quoted.Value.arg shown))) (fun n => (scope n).arg shown) = .ok x)
    (t : List PieceSyn) (ht : Reads E format t) (hc : Careful args scope t) :
    ∃ log out plain, writes (Display.fmt x) Style.default FormatterArgs.default = (log, .ok ()) ∧ ansiFormat x = .ok out ∧
      plainFormat x = .ok plain ∧ plain = text (flatten log) ∧ stripSgr out = plain ∧ '\n' ∉ plain ∧ Clean plain ∧
      ∀ kind : Vt.Kind, kind.boldFaint = .exclusive ∨ ¬ Vt.Muddled (flatten log) →
        (Vt.Screen.fresh.feed kind out).events = (flatten log).map fun y => .print y.1 (.ofStyle y.2) := by
  obtain ⟨log, h1, h2⟩ := C120_clean shown hs hE format args scope x h t ht hc Style.default FormatterArgs.default
  have hlog : treeOutput (args.map (argMeaning (Quoted.Value.arg shown))) (fun n => (scope n).arg shown) Style.default [] t =
      (log, .ok ()) := by
    rw [← (C46_end_to_end hE format _ _ x h).2 t ht Style.default FormatterArgs.default, h1]
  obtain ⟨hp, -, ⟨out, ho, hstrip⟩, -⟩ := C46_formats hE format _ _ x h t ht log hlog
  have hesc : ESC ∉ text (flatten log) := fun hm => absurd (h2 _ hm) (by decide)
  refine ⟨log, out, _, h1, ho, hp, rfl, hstrip hesc, fun hm => absurd (h2 _ hm) (by decide), h2, fun kind hk => ?_⟩
  have hmem : ∀ y ∈ flatten log, Vt.isControl y.1 = false := fun y hy => h2 _ (List.mem_map.2 ⟨y, hy, rfl⟩)
  rw [(C71_format x log out h1 ho kind).2 ⟨fun y hy hm => ?_, hk⟩]
  · refine List.map_congr_left fun y hy => ?_
    simp only [Vt.expected, hmem y hy, Bool.false_eq_true, if_false]
  · have := hmem y hy
    have hall : ∀ c ∈ Vt.acts kind, Vt.isControl c = true := by
      unfold Vt.acts
      split
      · decide +kernel
      · decide +kernel
    rw [hall _ hm] at this
    cases this

/-- C120: and a browser shows just these characters, each in its style, also inside a `<pre>`; so as the terminal does. -/
theorem C120_browser (shown : Char → Bool) (hs : ∀ c, shown c = true → Vt.isControl c = false) {E : Env} (hE : E.Lawful)
    (format : Str) (args : List (MacroArg Quoted.Value)) (scope : Str → Quoted.Value) (x : Arguments)
    (h : formatArgs E format (args.map (argMeaning (Quoted.Value.arg shown))) (fun n => (scope n).arg shown) = .ok x)
    (t : List PieceSyn) (ht : Reads E format t) (hc : Careful args scope t)
    (names : Browser.Names) (hn : names.Standard) :
    ∃ log page, writes (Display.fmt x) Style.default FormatterArgs.default = (log, .ok ()) ∧ htmlFormat x = .ok page ∧
      Browser.shows names page = some (flatten log) ∧
      Browser.preShows names (str "<pre>" ++ page ++ str "</pre>") = some (flatten log) := by
  obtain ⟨log, h1, h2⟩ := C120_clean shown hs hE format args scope x h t ht hc Style.default FormatterArgs.default
  have hf := (htmlFinished_exists stringSink stringSink_accepting StdString.new log).2
  have hden : denote x = (log, .ok ()) := h1
  have hmem : ∀ y ∈ flatten log, Vt.isControl y.1 = false := fun y hy => h2 _ (List.mem_map.2 ⟨y, hy, rfl⟩)
  have hcr : ∀ y ∈ flatten log, y.1 ≠ '\r' ∧ y.1 ≠ '\x00' := by
    intro y hy
    have := hmem y hy
    constructor <;> intro e <;> rw [e] at this <;> exact absurd this (by decide)
  have hlf : (flatten log).head? ≠ some ('\n', Style.default) := by
    intro e
    have := hmem _ (List.mem_of_mem_head? e)
    exact absurd this (by decide)
  rw [htmlFinished_eq _ _ _ _ hf] at hf
  exact ⟨log, _, h1, by rw [htmlFormat_eq, hden]; rfl, C70_exact names hn _ _ _ _ (.inl hf) hcr,
    (C105_pre_exact hn _ _ _ _ (.inl hf)).2 ⟨hcr, hlf⟩⟩

/-! ### Samples -/

/-- ASCII is shown as it is. -/
def asciiShown : Char → Bool := fun c => decide (32 ≤ c.toNat ∧ c.toNat < 127)

theorem asciiShown_clean (c : Char) (h : asciiShown c = true) : Vt.isControl c = false := by
  have h := of_decide_eq_true h
  simp only [Vt.isControl, Bool.or_eq_false_iff, Bool.and_eq_false_iff, decide_eq_false_iff_not]
  omega

/-- A log line with a user name from outside. -/
def loginFormat : Str := str "login {:(fg=red)?} from {:>6} by {:20?}"

def loginTree : List PieceSyn :=
  [.text (str "login "), .arg none (some { attrs := some ⟨[.fg .red], false⟩, ty := .debug }), .text (str " from "),
   .arg none (some { align := some (none, .Right), width := some (.lit ['6']) }), .text (str " by "),
   .arg none (some { width := some (.lit ['2', '0']), ty := .debug })]

/-- A name that tries to clear the screen and to forge a second line. -/
def loginArgs : List (MacroArg Quoted.Value) :=
  [.positional (.text (str "a\x1b[2J\nlogin \"root\"")), .positional (.other (.int 32 7)), .positional (.char '\'')]

def noQuoted : Str → Quoted.Value := fun _ => .char 'x'

theorem login_reads : Reads asciiEnv loginFormat loginTree := by
  refine ⟨by decide +kernel, ?_, ?_⟩
  · simp [Documented, loginTree, PieceSyn.Documented, SpecSyn.Documented, CountSyn.Documented, Numeral, Merged,
      PieceSyn.isText, AttrsSyn.Documented]
    try decide +kernel
  · simp [Supported, loginTree, PieceSyn.Supported, SpecSyn.Supported, CountSyn.Supported, NoFalseFill]
    try decide +kernel

example : Reads asciiEnv loginFormat loginTree := login_reads

/-- Everything is shown with care; with `{}` it would not be. -/
theorem login_careful : Careful loginArgs noQuoted loginTree := by
  intro before p after e
  have : ∃ n, n < 6 ∧ before = loginTree.take n ∧ loginTree[n]? = some p := by
    refine ⟨before.length, ?_, ?_, ?_⟩
    · have := congrArg List.length e
      simp [loginTree] at this
      omega
    · rw [e]; simp
    · rw [e]; simp
  obtain ⟨n, hn, rfl, h2⟩ := this
  match n, hn with
  | 0, _ => obtain rfl := Option.some.inj h2; unfold Clean; decide +kernel
  | 1, _ => obtain rfl := Option.some.inj h2; exact ⟨_, rfl, .inl rfl⟩
  | 2, _ => obtain rfl := Option.some.inj h2; unfold Clean; decide +kernel
  | 3, _ =>
    obtain rfl := Option.some.inj h2
    exact ⟨_, rfl, str "     7", by decide +kernel, by unfold Clean; decide +kernel⟩
  | 4, _ => obtain rfl := Option.some.inj h2; unfold Clean; decide +kernel
  | 5, _ => obtain rfl := Option.some.inj h2; exact ⟨_, rfl, .inl rfl⟩

example : Careful loginArgs noQuoted loginTree := login_careful

/-- What is written: one line, which clears nothing. -/
example :
    (formatArgs asciiEnv loginFormat (loginArgs.map (argMeaning (Quoted.Value.arg asciiShown)))
      (fun n => (noQuoted n).arg asciiShown)).toOption.map ansiFormat =
    some (.ok (str
      "login \x1b[31m\"a\\u{1b}[2J\\nlogin \\\"root\\\"\"\x1b[0m from      7 by '\\''")) := by
  decide +kernel

/-- Without `?` the name is written as it is: with a line feed and an escape sequence. -/
example :
    ((formatArgs asciiEnv (str "login {:(fg=red)}")
      [.positional (ArgVal.ofStr (str "a\x1b[2J\nlogin"))] (fun _ => ArgVal.ofBool true)).toOption.map ansiFormat) =
    some (.ok (str "login \x1b[31ma\x1b[2J\nlogin\x1b[0m")) := by
  decide +kernel

/-- `'"'` and `'\''`, `"'"` and `"\""`; width and precision are not looked at. -/
example :
    text (flatten (argOutput (Quoted.Value.arg asciiShown (.char '"')) { ty := .debug } .default).1) = str "'\"'" ∧
    text (flatten (argOutput (Quoted.Value.arg asciiShown (.char '\'')) { ty := .debug } .default).1) = str "'\\''" ∧
    text (flatten (argOutput (Quoted.Value.arg asciiShown (.text ['\''])) { ty := .debug } .default).1) = str "\"'\"" ∧
    text (flatten (argOutput (Quoted.Value.arg asciiShown (.text ['"']))
      { width := some (.lit ['9']), precision := some (.count (.lit ['0'])), ty := .debug } .default).1) =
      str "\"\\\"\"" := by
  decide +kernel

/-- Literals that mean a character, and others that do not. -/
example : charLiteral (str "'x'") = some 'x' ∧ charLiteral (str "'\\n'") = some '\n' ∧
    charLiteral (str "'\\u{1b}'") = some '\x1b' ∧ charLiteral ['\'', '\'', '\''] = none ∧
    charLiteral (str "'xy'") = none ∧ charLiteral (str "'\\") = none ∧ charLiteral (str "'\\nx'") = none := by
  decide +kernel

end Stylish.Props
