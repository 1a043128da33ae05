import Verif.Model.Formatter
/-
Specification vocabulary: styled text, and what a Display program writes.
-/

namespace Stylish.Spec

/-- Styled text: each character with its style. This is all a reader can observe. -/
abbrev Styled := List (Char × Style)

/-- One `write_str` call: the text and the style. -/
abbrev Chunk := Str × Style

/-- The styled characters of one text in one style. -/
def paint (s : Str) (style : Style) : Styled := s.map (fun c => (c, style))

/-- The styled characters of a sequence of writes. -/
def flatten (chunks : List Chunk) : Styled := chunks.flatMap (fun ch => paint ch.1 ch.2)

/-- Just the characters. -/
def text (t : Styled) : Str := t.map Prod.fst

/-- Make the given writes one after the other, stopping at the first one that does not succeed. -/
def writeChunks {W : Type} [Write W] : List Chunk → Act W FmtError Unit
  | [] => pure ()
  | ch :: rest => do
    Write.writeStr ch.1 ch.2
    writeChunks rest

/-- Neighbouring writes in the same style put together into one. -/
def mergeWrites : List Chunk → List Chunk
  | [] => []
  | (s, st) :: rest =>
    match mergeWrites rest with
    | [] => [(s, st)]
    | (u, st') :: more => if st = st' then (s ++ u, st) :: more else (s, st) :: (u, st') :: more

/-- A writer that accepts every write. -/
def Accepting (W : Type) [Write W] : Prop :=
  ∀ (s : Str) (style : Style) (w : W), (Write.writeStr s style w).1 = .ok ()

/-- How a program ends that returns the given result. -/
def ended : FmtResult → Res FmtError Unit
  | .ok => .ok ()
  | .err => .err ()

/-- The denotation of a Display program: what it writes, and how it ends, when started on a formatter with
the given style and options and every write succeeds. It mentions no writer. -/
def writes : Disp → Style → FormatterArgs → List Chunk × Res FmtError Unit
  | .done r, _, _ => ([], ended r)
  | .panic, _, _ => ([], .panic)
  | .writeStr s k, style, args =>
    let after := writes (k .ok) style args
    ((s, style) :: after.1, after.2)
  | .within r body k, style, args =>
    let inside := writes body (style.with r) args
    match inside.2 with
    | .ok () => let after := writes (k .ok) style args; (inside.1 ++ after.1, after.2)
    | .err () => let after := writes (k .err) style args; (inside.1 ++ after.1, after.2)
    | .panic => (inside.1, .panic)
    | .diverge => (inside.1, .diverge)
  | .withinArgs a r body k, style, args =>
    let inside := writes body (style.with r) a
    match inside.2 with
    | .ok () => let after := writes (k .ok) style args; (inside.1 ++ after.1, after.2)
    | .err () => let after := writes (k .err) style args; (inside.1 ++ after.1, after.2)
    | .panic => (inside.1, .panic)
    | .diverge => (inside.1, .diverge)
  | .inspect k, style, args => writes (k style args) style args

/-- A Display program that propagates errors: whenever one of its calls on the formatter fails, it
returns that error at once (the `?` operator after every call). -/
def Propagates : Disp → Prop
  | .done _ => True
  | .panic => True
  | .writeStr _ k => k .err = .done .err ∧ Propagates (k .ok)
  | .within _ body k => Propagates body ∧ k .err = .done .err ∧ Propagates (k .ok)
  | .withinArgs _ _ body k => Propagates body ∧ k .err = .done .err ∧ Propagates (k .ok)
  | .inspect k => ∀ style args, Propagates (k style args)

end Stylish.Spec
