import Verif.Props.Macro
import Verif.Spec.IoSink
import Verif.Model.Io
import Verif.Model.MacroInput
/-
The project's own tests and documentation examples, run in the model. These are tests of the model against
expectations written by the authors of the code (not by us), nothing more; the properties are in Props/.
-/

namespace Stylish.RepoTests

open Spec Props

/-- ASCII identifiers and one hieroglyph, as in tests/tests.rs:180-185. -/
def env : Env := ⟨fun c => c.isAlpha || c == '𓀄', fun c => c.isAlphanum || c == '_' || c == '𓀄', 2 ^ 64 - 1⟩

/-- `stylish::plain::format!`. -/
def plain (format : String) (args : List (MacroArg ArgVal)) (scope : Str → ArgVal := noScope) : Option Str :=
  match (formatArgs env (str format) args scope).toOption.map plainFormat with
  | some (.ok s) => some s
  | _ => none

/-- `stylish::ansi::format!`. -/
def ansi (format : String) (args : List (MacroArg ArgVal)) : Option Str :=
  match (formatArgs env (str format) args noScope).toOption.map ansiFormat with
  | some (.ok s) => some s
  | _ => none

/-- `stylish::html::format!`. -/
def html (format : String) (args : List (MacroArg ArgVal)) : Option Str :=
  match (formatArgs env (str format) args noScope).toOption.map htmlFormat with
  | some (.ok s) => some s
  | _ => none

/-- An argument that std (and stylish) display as `s`. -/
def a (s : String) : MacroArg ArgVal := .positional (textArg (str s))

/-- `n = s`. -/
def named (n s : String) : MacroArg ArgVal := .named (str n) (textArg (str s))

/-- An argument with a stylish Display implementation only. -/
def d (p : Disp) : MacroArg ArgVal := .positional ⟨fun _ _ => .done .err, p⟩

/-! tests/tests.rs, plain/tests/tests.rs -/

/-- `one`, `two`, `four`, `six`, `dyn_display`, `large` -/
example : plain "{}" [a "1"] = some (str "1") := by decide +kernel
example : plain "{0}" [a "1"] = some (str "1") := by decide +kernel
example : plain "{x}" [named "x" "1"] = some (str "1") := by decide +kernel
example : plain "{x}" [named "x" "2"] (fun _ => textArg (str "1")) = some (str "2") := by decide +kernel
example : plain "{:s}" [d (.writeStr (str "foo") .done)] = some (str "foo") := by decide +kernel

/-- `let_` -/
example : (match formatArgs env (str "{}") [a "1"] noScope with
    | .ok x => plain "{:s}" [d (Display.fmt x)]
    | .error _ => none) = some (str "1") := by decide +kernel

/-- `three`: the block expression is evaluated once. -/
example : (match formatArgsMacro env (str "{}{0}")
      [.positional (fun n : Nat => (textArg (Nat.toDigits 10 (n + 1)), n + 1))] with
    | .ok x => some ((plainFormat (x.eval (fun n => pureExpr (noScope n)) 5).1), (x.eval (fun n => pureExpr (noScope n)) 5).2)
    | .error _ => none) = some (.ok (str "66"), 6) := by decide +kernel

/-- `five` -/
example : plain "{x}" [] (fun n => if n = str "x" then textArg (str "1") else noScope n) = some (str "1") := by
  decide +kernel

/-- `error` -/
example : (match writelnMacro env IoWrite.writeFmt (IoPlain.new (fuel := 9) (ScriptSink.mk [] [])) (str "{:s}")
      [d (.done .err)] noScope with
    | .ok (.err e, _) => some e.kind
    | _ => none) = some .Other := by decide +kernel

/-- `blue` -/
example : ansi "{:(fg=blue)}" [a "2"] = some (str "\x1b[34m2\x1b[0m") := by decide +kernel
example : html "{:(fg=blue)}" [a "2"] = some (str "<span style=color:blue>2</span>") := by decide +kernel
example : plain "{:(fg=blue)}" [a "2"] = some (str "2") := by decide +kernel

/-- `bold` -/
example : ansi "{:(bold)}" [a "2"] = some (str "\x1b[1m2\x1b[0m") := by decide +kernel
example : html "{:(bold)}" [a "2"] = some (str "<span style=font-weight:bolder>2</span>") := by decide +kernel
example : plain "{:(bold)}" [a "2"] = some (str "2") := by decide +kernel

/-- `blue_bold` -/
example : ansi "{:(fg=blue,bold)}" [a "2"] = some (str "\x1b[34;1m2\x1b[0m") := by decide +kernel
example : html "{:(fg=blue,bold)}" [a "2"] =
    some (str "<span style=color:blue;font-weight:bolder>2</span>") := by decide +kernel
example : plain "{:(fg=blue,bold)}" [a "2"] = some (str "2") := by decide +kernel

/-- `bold_blue` -/
example : ansi "{:(bold,fg=blue)}" [a "2"] = some (str "\x1b[34;1m2\x1b[0m") := by decide +kernel
example : html "{:(bold,fg=blue)}" [a "2"] =
    some (str "<span style=color:blue;font-weight:bolder>2</span>") := by decide +kernel
example : plain "{:(bold,fg=blue)}" [a "2"] = some (str "2") := by decide +kernel

/-- `bold_then_blue` -/
example : ansi "plain {:(bold)} {:(fg=blue)}" [a "bold", a "blue"] =
    some (str "plain \x1b[1mbold\x1b[0m \x1b[34mblue\x1b[0m") := by decide +kernel
example : html "plain {:(bold)} {:(fg=blue)}" [a "bold", a "blue"] =
    some (str "plain <span style=font-weight:bolder>bold</span> <span style=color:blue>blue</span>") := by
  decide +kernel
example : plain "plain {:(bold)} {:(fg=blue)}" [a "bold", a "blue"] = some (str "plain bold blue") := by
  decide +kernel

/-- `bold_then_bold_blue_then_blue` -/
example : ansi "{:(bold)}{:(bold,fg=blue)}{:(fg=blue)}" [a "bold", a "bold-blue", a "blue"] =
    some (str "\x1b[1mbold\x1b[34mbold-blue\x1b[22mblue\x1b[0m") := by decide +kernel
example : html "{:(bold)}{:(bold,fg=blue)}{:(fg=blue)}" [a "bold", a "bold-blue", a "blue"] =
    some (str "<span style=font-weight:bolder>bold</span><span style=color:blue;font-weight:bolder>bold-blue</span><span style=color:blue>blue</span>") := by
  decide +kernel
example : plain "{:(bold)}{:(bold,fg=blue)}{:(fg=blue)}" [a "bold", a "bold-blue", a "blue"] =
    some (str "boldbold-blueblue") := by decide +kernel

/-- `non_ascii_idents` -/
example : plain "{𓀄}" [] (fun n => if n = str "𓀄" then textArg (str "5") else noScope n) = some (str "5") := by
  decide +kernel
example : plain "{𓀄}" [named "𓀄" "5"] = some (str "5") := by decide +kernel

/-- `empty_string` -/
example : ansi "{:(fg=blue)}{:(fg=red)}{:(fg=blue)}" [a "foo", a "", a "bar"] =
    some (str "\x1b[34mfoobar\x1b[0m") := by decide +kernel
example : html "{:(fg=blue)}{:(fg=red)}{:(fg=blue)}" [a "foo", a "", a "bar"] =
    some (str "<span style=color:blue>foobar</span>") := by decide +kernel

/-- `capture_raw_strings_and_idents` -/
example : plain "The fruit is an {type}" [] (fun n => if n = str "type" then textArg (str "apple") else noScope n) =
    some (str "The fruit is an apple") := by decide +kernel

/-! Documentation examples -/

/-- html/src/format.rs:12-15, README -/
example : html "Hello {:(fg=red)}" [a "Ferris"] = some (str "Hello <span style=color:red>Ferris</span>") := by
  decide +kernel

/-- ansi/src/io.rs:15-17, src/lib.rs:44-46: `io::Ansi` on a `Vec<u8>` -/
example : (match writeMacro env (IoWrite.writeFmt (W := IoAnsi 99 ScriptSink)) (IoAnsi.new ⟨[], []⟩)
      (str "Hello {:(fg=red)}") [a "Ferris"] noScope with
    | .ok (.ok (), w) => some (IoAnsi.finish w).2.inner.got
    | _ => none) = some (utf8 (str "Hello \x1b[31mFerris\x1b[0m")) := by decide +kernel

/-- plain/src/io.rs, src/lib.rs:60-62 -/
example : (match writeMacro env (IoWrite.writeFmt (W := IoPlain 99 ScriptSink)) (IoPlain.new ⟨[], []⟩)
      (str "Hello {:(fg=red)}") [a "Ferris"] noScope with
    | .ok (.ok (), w) => some w.intoInner.got
    | _ => none) = some (utf8 (str "Hello Ferris")) := by decide +kernel

/-- core/src/formatter.rs:77-95: a `Display` with `f.with(..).write_str(..)` -/
example : html "Hello {:s} and {:s}"
      [d (.within (.of (Foreground.mk .Red)) (.writeStr (str "Ferris") .done) .done),
       d (.within (.of (Foreground.mk .Cyan)) (.writeStr (str "Gorris") .done) .done)] =
    some (str "Hello <span style=color:red>Ferris</span> and <span style=color:cyan>Gorris</span>") := by
  decide +kernel

/-- core/src/formatter.rs:151-168: a `Display` with `f.write_fmt(format_args!(..))` -/
example : (match formatArgs env (str "{:(fg=red)}") [a "Ferris"] noScope,
      formatArgs env (str "{:(fg=cyan)}") [a "Gorris"] noScope with
    | .ok x, .ok y => html "Hello {:s} and {:s}" [d x.f, d y.f]
    | _, _ => none) =
    some (str "Hello <span style=color:red>Ferris</span> and <span style=color:cyan>Gorris</span>") := by
  decide +kernel

/-- core/src/arguments.rs:49-53 -/
example : (match formatArgs env (str "{:(bg=red)} Will Robinson") [a "Danger"] noScope with
    | .ok x => html "{:s}" [d (Display.fmt x)]
    | _ => none) = some (str "<span style=background-color:red>Danger</span> Will Robinson") := by
  decide +kernel

/-- core/src/string.rs:30-40: formatting to an attributed string, appending, and displaying it -/
example : (match formatArgs env (str "Hello {:(fg=green)}!") [a "World"] noScope,
      formatArgs env (str " Is it {:(fg=magenta)} or?") [a "fuchsia"] noScope with
    | .ok x, .ok y => match coreFormat x with
      | .ok s => html "{:s}" [d (Display.fmt (Write.writeFmt y s).2)]
      | _ => none
    | _, _ => none) =
    some (str "Hello <span style=color:green>World</span>! Is it <span style=color:magenta>fuchsia</span> or?") := by
  decide +kernel

/-- core/src/write.rs:155-162: `writeln!` three times on `Html` -/
example : (match writelnMacroEmpty env Write.writeFmt (Html.new StdString.new) with
    | .ok (.ok (), w) => match writelnMacro env Write.writeFmt w (str "test") [] noScope with
      | .ok (.ok (), w) =>
        match writelnMacro env Write.writeFmt w (str "formatted {:(fg=yellow)}") [a "arguments"] noScope with
        | .ok (.ok (), w) => some (Html.finish w).2.inner.chars
        | _ => none
      | _ => none
    | _ => none) =
    some (str "\ntest\nformatted <span style=color:yellow>arguments</span>\n") := by decide +kernel

/-- style/src/lib.rs:97-103, 110-116, 164-170 -/
example : Style.default.with (Foreground.mk .Magenta) = ⟨.Magenta, .Default, .Normal⟩ := rfl
example : Style.default.with (Background.mk .Magenta) = ⟨.Default, .Magenta, .Normal⟩ := rfl
example : Style.default.with Intensity.Faint = ⟨.Default, .Default, .Faint⟩ := rfl

/-- {ansi,html}/src/to_string.rs -/
example : (toAnsiString env (.within (.of (Foreground.mk .Red)) (.writeStr (str "FIRE") .done) .done)).toOption =
    some (.ok (str "\x1b[31mFIRE\x1b[0m")) := by decide +kernel

end Stylish.RepoTests
