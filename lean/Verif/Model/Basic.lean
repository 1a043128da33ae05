/-
Basic vocabulary of the model: Rust strings, byte strings, results and state-passing actions.
No definition here models repo code by itself; these are the conventions the other files use.
-/

namespace Stylish

/-- A Rust `str`: its sequence of `char`s. Byte-level facts (`len()`, slicing) are recovered through
`strLen` / `strSlice`. (external type, e.g. core/src/write.rs:36) -/
abbrev Str := List Char

/-- A Rust `[u8]`. (external type, e.g. core/src/io.rs:118) -/
abbrev Bytes := List UInt8

/-- Convert a literal. (string literals throughout, e.g. ansi/src/ansi.rs:43) -/
abbrev str (s : String) : Str := s.toList

/-- `s.as_bytes()`: the UTF-8 encoding (core Lean's `String.utf8EncodeChar` per character).
(external; used in core/src/io.rs:27, ansi/src/io.rs:69) -/
def utf8 (s : Str) : Bytes := s.flatMap String.utf8EncodeChar

/-- `s.len()`: the number of UTF-8 bytes. (external; used in core/src/string.rs:64, 79) -/
def strLen (s : Str) : Nat := (s.map Char.utf8Size).sum

/-- Drop a prefix of exactly `n` bytes; `none` when `n` is past the end or not a char boundary.
(helper for the slicing in core/src/string.rs:80) -/
def dropBytes : Nat → Str → Option Str
  | 0, s => some s
  | _ + 1, [] => none
  | n + 1, c :: cs => if c.utf8Size ≤ n + 1 then dropBytes (n + 1 - c.utf8Size) cs else none

/-- Take a prefix of exactly `n` bytes; `none` when `n` is past the end or not a char boundary.
(helper for the slicing in core/src/string.rs:80) -/
def takeBytes : Nat → Str → Option Str
  | 0, _ => some []
  | _ + 1, [] => none
  | n + 1, c :: cs =>
    if c.utf8Size ≤ n + 1 then (takeBytes (n + 1 - c.utf8Size) cs).map (c :: ·) else none

/-- `&s[start..end]`; `none` is the panic of Rust's `str` slicing (start > end, out of bounds, or not
on a char boundary). (external; used in core/src/string.rs:80) -/
def strSlice (s : Str) (start stop : Nat) : Option Str :=
  if start ≤ stop then (dropBytes start s).bind (takeBytes (stop - start)) else none

/-- The outcome of running Rust code: `Ok(a)`, `Err(e)`, a panic, or "still running when the fuel of a
potentially unbounded loop ran out".
(models no code of its own: the outcomes of e.g. core/src/write.rs:36) -/
inductive Res (E A : Type) where
  | ok (a : A)
  | err (e : E)
  | panic
  | diverge
  deriving DecidableEq, Repr

/-- A method taking `&mut self` with `self : S` and returning `Result<A, E>`.
(the shape of e.g. core/src/write.rs:36, core/src/io.rs:118) -/
def Act (S E A : Type) : Type := S → Res E A × S

namespace Act
variable {S E A B : Type}

/-- `Ok(a)` (e.g. ansi/src/ansi.rs:78) -/
def pure (a : A) : Act S E A := fun s => (.ok a, s)

/-- Sequencing with Rust's `?`: continue only on `Ok`. (e.g. ansi/src/ansi.rs:66-77) -/
def bind (x : Act S E A) (f : A → Act S E B) : Act S E B := fun s =>
  match x s with
  | (.ok a, s') => f a s'
  | (.err e, s') => (.err e, s')
  | (.panic, s') => (.panic, s')
  | (.diverge, s') => (.diverge, s')

/-- Sequencing with `?`, for `do` notation. (e.g. ansi/src/ansi.rs:56-77) -/
instance : Monad (Act S E) where
  pure := Act.pure
  bind := Act.bind

/-- Return `Err(e)`. (e.g. core/src/io.rs:179, 186) -/
def fail (e : E) : Act S E A := fun s => (.err e, s)

/-- Panic. (e.g. core/src/format.rs:62) -/
def panicked : Act S E A := fun s => (.panic, s)

@[simp] theorem pure_apply (a : A) (s : S) :
    (Pure.pure a : Act S E A) s = (.ok a, s) := rfl

theorem bind_apply (x : Act S E A) (f : A → Act S E B) (s : S) :
    (x >>= f) s = match x s with
      | (.ok a, s') => f a s'
      | (.err e, s') => (.err e, s')
      | (.panic, s') => (.panic, s')
      | (.diverge, s') => (.diverge, s') := rfl

end Act

/-- `core::fmt::Error`, a unit struct.
(external; core/src/lib.rs re-exports it, used e.g. in core/src/io.rs:221) -/
abbrev FmtError := Unit

/-- `core::fmt::Result` as a value a caller can look at (no panic, no divergence).
(external; e.g. the return type in core/src/display.rs:52) -/
inductive FmtResult where
  | ok
  | err
  deriving DecidableEq, Repr

/-- A `fmt::Result` as an outcome. (glue for `FmtResult`, e.g. core/src/display.rs:52) -/
def FmtResult.toRes : FmtResult → Res FmtError Unit
  | .ok => .ok ()
  | .err => .err ()

end Stylish
