import Verif.Model.StdPad
import Verif.Model.DebugMore
/-
How std's `str` and `char` write themselves with `{:?}` through the formatter that `core::write!` of
/repo/core/src/std_compat.rs:7 gives them (external: library/core/src/fmt/mod.rs of Rust 1.6x). Which characters are
shown as they are is arbitrary (`shown`, see `escapeDebug`).
-/

namespace Stylish

/-- `for c in s { f.write_char(c)?; } k` (external; for core/src/std_compat.rs:7) -/
def StdProg.putChars : Str → StdProg → StdProg
  | [], k => k
  | c :: s, k => .put [c] (StdProg.putChars s k)

/-- The loop of `impl Debug for str`: `run` are the characters since the last one that had to be escaped.
(external; for core/src/std_compat.rs:7) -/
def strDebugLoop (shown : Char → Bool) (run : Str) : Str → StdProg → StdProg
  | [], k => .put run k
  | c :: s, k =>
    if (escapeDebug shown c).length ≠ 1 then
      .put run (.putChars (escapeDebug shown c) (strDebugLoop shown [] s k))
    else strDebugLoop shown (run ++ [c]) s k

/-- `impl Debug for str`; the formatter's options are not looked at. (external; for core/src/std_compat.rs:7) -/
def strDebug (shown : Char → Bool) (s : Str) : StdProg :=
  .put ['"'] (strDebugLoop shown [] s (.put ['"'] (.done .ok)))

/-- `char::escape_debug_ext` as `impl Debug for char` uses it: the other kind of quotation mark is escaped.
(external; for core/src/std_compat.rs:7) -/
def escapeCharDebug (shown : Char → Bool) (c : Char) : Str :=
  if c = '\'' then ['\\', '\''] else if c = '"' then ['"'] else escapeDebug shown c

/-- `impl Debug for char`; the formatter's options are not looked at. (external; for core/src/std_compat.rs:7) -/
def charDebug (shown : Char → Bool) (c : Char) : StdProg :=
  .put ['\''] (.putChars (escapeCharDebug shown c) (.put ['\''] (.done .ok)))

/-- A `str` or `String` as an argument, also with `{:?}`. (what `&#arg` is in macros/src/lib.rs:189-198; external) -/
def ArgVal.ofText (shown : Char → Bool) (s : Str) : ArgVal where
  std := fun
    | .Display, o => padStr o s
    | .Debug, _ => strDebug shown s
    | _, _ => .panic
  stylish := .panic

/-- A `char` as an argument, also with `{:?}`. (what `&#arg` is in macros/src/lib.rs:189-198; external) -/
def ArgVal.ofChar (shown : Char → Bool) (c : Char) : ArgVal where
  std := fun
    | .Display, o => padStr o [c]
    | .Debug, _ => charDebug shown c
    | _, _ => .panic
  stylish := .panic

end Stylish
