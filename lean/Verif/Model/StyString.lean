import Verif.Model.Formatter
/-
Model of /repo/core/src/string.rs.
-/

namespace Stylish

/-- core/src/string.rs:43-46 `struct String`; offsets are byte offsets as in Rust. -/
structure StyString where
  string : Str
  styles : List (Nat × Style)
  deriving DecidableEq, Repr

namespace StyString

/-- core/src/string.rs:55-57 `String::new`. -/
def new : StyString := ⟨[], []⟩

/-- core/src/string.rs:62-68 `Write::write_str` for `String`. -/
def writeStr (s : Str) (style : Style) : Act StyString FmtError Unit := fun self =>
  let self :=
    if some style ≠ self.styles.getLast?.map Prod.snd then
      { self with styles := self.styles ++ [(strLen self.string, style)] }
    else self
  (.ok (), { self with string := self.string ++ s })

/-- core/src/string.rs:60-69 `impl Write for String`; the other methods are the provided ones. -/
instance : Write StyString := ⟨writeStr⟩

/-- core/src/string.rs:74-82 the loop of `Display for String`: a slice that panics is `Disp.panic`. -/
def fmtFrom (string : Str) : List (Nat × Style) → Disp
  | [] => .done .ok
  | (start, style) :: styles =>
    let stop := match styles.head? with
      | some (stop, _) => stop
      | none => strLen string
    match strSlice string start stop with
    | none => .panic
    | some part =>
      .within (.of style) (.writeStr part .done) (Disp.try_ (fmtFrom string styles))

/-- core/src/string.rs:71-84 `impl Display for String`. -/
instance : Display StyString := ⟨fun self => fmtFrom self.string self.styles⟩

end StyString

end Stylish
