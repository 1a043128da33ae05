import Verif.Model.Live
import Verif.Spec.Macro
/-
Specification vocabulary: showing values that have a state (Model/Live).
-/

namespace Stylish.Spec.Syntax

variable {S W : Type}

/-- A std formatting program run on a writer of plain strings. -/
def liveStdRun (put : Str → Act W FmtError Unit) : LiveStd S → Act (W × S) FmtError Unit
  | .done r => fun p => (ended r, p)
  | .panic => fun p => (.panic, p)
  | .get k => fun p => liveStdRun put (k p.2) p
  | .set s next => fun p => liveStdRun put next (p.1, s)
  | .write t k => fun p =>
    match put t p.1 with
    | (.ok (), w) => liveStdRun put (k .ok) (w, p.2)
    | (.err (), w) => liveStdRun put (k .err) (w, p.2)
    | (.panic, w) => (.panic, w, p.2)
    | (.diverge, w) => (.diverge, w, p.2)

/-- Showing a value, once, in a placeholder with the given specification. -/
def liveArgRun [Write W] (v : LiveVal S) (spec : SpecSyn) (surrounding : Style) : Act (W × S) FmtError Unit := fun p =>
  match spec.ty with
  | .stylish =>
    let (r, f, s) := v.stylish.run (⟨spec.style surrounding, spec.options, p.1⟩, p.2)
    (r, f.write, s)
  | ty =>
    liveStdRun (fun text => Write.writeStr text (spec.style surrounding))
      (v.std ty.trait (stdView ty.stdKind spec.options)) p

/-- Writing a literal: the state is left alone. -/
def liveLit [Write W] (t : Str) (st : Style) : Act (W × S) FmtError Unit := fun p =>
  let (r, w) := Write.writeStr t st p.1
  (r, w, p.2)

/-- Running one piece: a literal is written, a placeholder shows its value. -/
def livePieceRun [Write W] (args : List (MacroArg (LiveVal S))) (scope : Str → LiveVal S) (before : List PieceSyn)
    (st : Style) : PieceSyn → Act (W × S) FmtError Unit
  | .text t => liveLit t st
  | .openBrace => liveLit ['{'] st
  | .closeBrace => liveLit ['}'] st
  | .arg ref spec =>
    match valueFor args scope before ref with
    | some v => liveArgRun v (specOf spec) st
    | none => fun p => (.panic, p)

/-- Running the pieces one after the other, stopping at the first that does not return `Ok`. -/
def liveTreeRun [Write W] (args : List (MacroArg (LiveVal S))) (scope : Str → LiveVal S) (st : Style)
    (before : List PieceSyn) : List PieceSyn → Act (W × S) FmtError Unit
  | [] => fun p => (.ok (), p)
  | x :: rest => fun p =>
    match livePieceRun args scope before st x p with
    | (.ok (), p') => liveTreeRun args scope st (before ++ [x]) rest p'
    | stop => stop

/-! ### Values that note when they are shown -/

/-- An argument with its value replaced. -/
def mapArg {X Y : Type} (g : X → Y) : MacroArg X → MacroArg Y
  | .positional e => .positional (g e)
  | .named n e => .named n (g e)

variable {L : Type}

/-- The same program, next to another state, which it leaves alone. -/
def besideDisp : LiveDisp S → LiveDisp (S × L)
  | .done r => .done r
  | .panic => .panic
  | .get k => .get fun p => besideDisp (k p.1)
  | .set s next => .get fun p => .set (s, p.2) (besideDisp next)
  | .writeStr t k => .writeStr t fun r => besideDisp (k r)
  | .within r body k => .within r (besideDisp body) fun r => besideDisp (k r)
  | .withinArgs a r body k => .withinArgs a r (besideDisp body) fun r => besideDisp (k r)
  | .inspect k => .inspect fun st a => besideDisp (k st a)

/-- The same for std's traits. -/
def besideStd : LiveStd S → LiveStd (S × L)
  | .done r => .done r
  | .panic => .panic
  | .get k => .get fun p => besideStd (k p.1)
  | .set s next => .get fun p => .set (s, p.2) (besideStd next)
  | .write t k => .write t fun r => besideStd (k r)

/-- The value that, whenever it is shown, first adds a label to a list, and then does what it does. -/
def noting (x : L × LiveVal S) : LiveVal (S × List L) where
  std := fun tr opts => .get fun p => .set (p.1, p.2 ++ [x.1]) (besideStd (x.2.std tr opts))
  stylish := .get fun p => .set (p.1, p.2 ++ [x.1]) (besideDisp x.2.stylish)

/-- The labels of the values the placeholders show, in the order of the placeholders. -/
def labelsShown {X : Type} (args : List (MacroArg (L × X))) (scope : Str → L × X) (before : List PieceSyn) :
    List PieceSyn → List L
  | [] => []
  | .arg ref spec :: rest =>
    ((valueFor args scope before ref).map Prod.fst).toList ++ labelsShown args scope (before ++ [.arg ref spec]) rest
  | x :: rest => labelsShown args scope (before ++ [x]) rest

/-! ### Values without a state -/

/-- A program that does not touch the state. -/
def stillDisp : Disp → LiveDisp S
  | .done r => .done r
  | .panic => .panic
  | .writeStr t k => .writeStr t fun r => stillDisp (k r)
  | .within r body k => .within r (stillDisp body) fun r => stillDisp (k r)
  | .withinArgs a r body k => .withinArgs a r (stillDisp body) fun r => stillDisp (k r)
  | .inspect k => .inspect fun st a => stillDisp (k st a)

/-- The same for std's traits. -/
def stillStd : StdProg → LiveStd S
  | .done r => .done r
  | .panic => .panic
  | .write t k => .write t fun r => stillStd (k r)

/-- A value that does not touch the state. -/
def still (v : ArgVal) : LiveVal S where
  std := fun tr opts => stillStd (v.std tr opts)
  stylish := stillDisp v.stylish

end Stylish.Spec.Syntax
