import Verif.Spec.Browser
import Verif.Spec.Sink
/-
Specification: what a browser shows of markup that is cut off by the end of the page.
-/

namespace Stylish.Spec.Browser

/-- The cut-off pieces of a tag or of a character reference that can be seen if the page ends there: anything longer
of a tag is not shown. -/
def halfMarkup : List Str :=
  ["<", "</", "&", "&l", "&lt", "&g", "&gt", "&a", "&am", "&amp", "&q", "&qu", "&quo", "&quot", "&#", "&#x", "&#x2",
   "&#x27"].map str

/-- The characters shown of a page. -/
def shownText (names : Names) (page : Str) : Option Str := (shows names page).map fun r => r.map Prod.fst

/-- What may be left over at the end of a page: nothing, or what is shown of a cut-off piece. -/
def Leftover (names : Names) (s : Str) : Prop := s = [] ∨ ∃ cut ∈ halfMarkup, shownText names cut = some s

end Stylish.Spec.Browser

namespace Stylish.Spec

/-- A stream that takes each call whole or, if it does not return `Ok`, nothing of it. -/
def WholeSink {T : Type} [FmtWrite T] (k : FmtSink T) : Prop :=
  ∀ s t t' r, FmtWrite.writeStr s t = (r, t') → r ≠ .ok () → k.delivered t' = k.delivered t

end Stylish.Spec
