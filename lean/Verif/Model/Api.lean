import Verif.Model.Plain
import Verif.Model.Ansi
import Verif.Model.Html
import Verif.Model.StyString
/-
Model of the `format` functions and `To*String` traits: /repo/{core,ansi,html,plain}/src/format.rs and
to_string.rs. The result is `Res Empty A`: these functions return a plain value, so their only
"failure" is a panic.
-/

namespace Stylish

/-- `.expect(..)` on the `Result` of an action, returning (part of) the final state: an `Err` becomes a
panic.
(core/src/format.rs:62, plain/src/format.rs:41, ansi/src/format.rs:40-41, html/src/format.rs:40-41) -/
def expectState {S A : Type} (get : S → A) : Res FmtError Unit × S → Res Empty A
  | (.ok (), s) => .ok (get s)
  | (.err (), _) => .panic
  | (.panic, _) => .panic
  | (.diverge, _) => .diverge

/-- Bind for values that can only panic.
(glue for the two `expect`s in ansi/src/format.rs:40-41, html/src/format.rs:40-41) -/
def Res.andThen {A B : Type} : Res Empty A → (A → Res Empty B) → Res Empty B
  | .ok a, f => f a
  | .panic, _ => .panic
  | .diverge, _ => .diverge

/-- core/src/format.rs:58-64 `stylish::format`. -/
def coreFormat (args : Arguments) : Res Empty StyString :=
  expectState id (Write.writeFmt args StyString.new)

/-- plain/src/format.rs:37-43 `stylish::plain::format`. -/
def plainFormat (args : Arguments) : Res Empty Str :=
  expectState (fun p : Plain StdString => p.intoInner.chars)
    (Plain.writeFmt args (Plain.new StdString.new))

/-- ansi/src/format.rs:37-42 `stylish::ansi::format`. -/
def ansiFormat (args : Arguments) : Res Empty Str :=
  (expectState id (Ansi.writeFmt args (Ansi.new StdString.new))).andThen fun ansi =>
    expectState (fun a : Ansi StdString => a.inner.chars) (Ansi.finish ansi)

/-- html/src/format.rs:37-42 `stylish::html::format`. -/
def htmlFormat (args : Arguments) : Res Empty Str :=
  (expectState id (Html.writeFmt args (Html.new StdString.new))).andThen fun html =>
    expectState (fun h : Html StdString => h.inner.chars) (Html.finish html)

end Stylish
