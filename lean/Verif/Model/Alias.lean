import Verif.Model.Ansi
import Verif.Model.Html
import Verif.Model.Plain
import Verif.Model.Io
/-
The short names of the writers in the main crate: /repo/src/lib.rs.
-/

namespace Stylish

variable {T : Type}

/-- src/lib.rs:79-81 `stylish::ansi`. -/
def ansi (inner : T) : Ansi T := Ansi.new inner

/-- src/lib.rs:95-97 `stylish::html`. -/
def html (inner : T) : Html T := Html.new inner

/-- src/lib.rs:108-110 `stylish::plain`. -/
def plain (inner : T) : Plain T := Plain.new inner

/-- src/lib.rs:49-51 `stylish::io::ansi`. -/
def ioAnsi (fuel : Nat) (inner : T) : IoAnsi fuel T := IoAnsi.new inner

/-- src/lib.rs:65-67 `stylish::io::plain`. -/
def ioPlain (fuel : Nat) (inner : T) : IoPlain fuel T := IoPlain.new inner

end Stylish
