import Verif.Spec.Text
import Verif.Model.Io
/-
Specification vocabulary: writers of the user's own, which pass what they are given on to other writers (C118).
-/

namespace Stylish.Spec

/-- What a writer of the user's own does with a text it is given: the texts it passes on, and what it remembers. -/
abbrev Adapt (S : Type) := S → Str → Style → List Chunk × S

/-- A writer of the user's own: what it remembers, and the writer it passes texts on to. -/
structure Adaptor (f : Adapt S) (W : Type) where
  state : S
  inner : W

/-- `impl stylish::Write`: it passes the texts on one after the other, with `?`, and then remembers. -/
instance (f : Adapt S) [Write W] : Write (Adaptor f W) :=
  ⟨fun s style self =>
    match writeChunks (f self.state s style).1 self.inner with
    | (.ok (), w) => (.ok (), ⟨(f self.state s style).2, w⟩)
    | (r, w) => (r, ⟨self.state, w⟩)⟩

/-- What it passes on of a sequence of texts. -/
def passedOn (f : Adapt S) : S → List Chunk → List Chunk
  | _, [] => []
  | x, (s, style) :: rest => (f x s style).1 ++ passedOn f (f x s style).2 rest

/-- Colours switched off. -/
def noColour : Adapt Unit := fun _ s _ => ([(s, Style.default)], ())

/-- Other colours. -/
def theme (g : Style → Style) : Adapt Unit := fun _ s style => ([(s, g style)], ())

/-- Capitals. -/
def capitals : Adapt Unit := fun _ s style => ([(s.map Char.toUpper, style)], ())

/-- A mark before each line, in its own style; remembered is whether a line begins. -/
def marked (mark : Str) (markStyle : Style) : Adapt Bool := fun start s style =>
  (s.foldl (fun (done : List Chunk × Bool) c =>
    ((if done.2 then done.1 ++ [(mark, markStyle)] else done.1) ++ [([c], style)], c = '\n')) ([], start))

/-- A writer of the user's own that passes everything on to two writers: first to one, then, with `?`, to the other. -/
structure Tee (V W : Type) where
  first : V
  second : W

instance [Write V] [Write W] : Write (Tee V W) :=
  ⟨fun s style self =>
    match Write.writeStr s style self.first with
    | (.ok (), v) =>
      match Write.writeStr s style self.second with
      | (r, w) => (r, ⟨v, w⟩)
    | (r, v) => (r, ⟨v, self.second⟩)⟩

/-- A byte writer of the user's own that exchanges the styles. -/
structure IoRestyled (fuel : Nat) (g : Style → Style) (W : Type) where
  inner : W

/-- Its `write`. -/
def IoRestyled.put [IoWrite W] (s : Bytes) (style : Style) : Act (IoRestyled fuel g W) IoError Nat := fun self =>
  ((IoWrite.write s (g style) self.inner).1, ⟨(IoWrite.write s (g style) self.inner).2⟩)

/-- `impl stylish::io::Write` with the two required methods; `write_all` is the provided one. -/
instance [IoWrite W] : IoWrite (IoRestyled fuel g W) where
  write := IoRestyled.put
  flush := fun self => let (r, w) := IoWrite.flush self.inner; (r, ⟨w⟩)
  writeAll := defaultWriteAll IoRestyled.put fuel

end Stylish.Spec
