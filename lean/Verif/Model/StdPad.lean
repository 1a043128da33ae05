import Verif.Model.Expand
/-
How std's own types write themselves through the formatter that `core::write!` of /repo/core/src/std_compat.rs:7
gives them: the `Display` of `str`, `char` and `bool`, and `Display`, `Debug`, `LowerHex`, `UpperHex`, `Octal` and
`Binary` of the integers (external: library/core/src/fmt/mod.rs and num.rs of Rust 1.6x). `Debug` of `str` and
`char` is in StdDebug.lean. The floats and pointers are not modelled: they are a panic here, so that nothing can be
proved of them.
-/

namespace Stylish

/-- `f.write_str(s)?; k` (external; each such call is one of core/src/std_compat.rs:80-83) -/
def StdProg.put (s : Str) (k : StdProg) : StdProg :=
  .write s fun
    | .ok => k
    | .err => .done .err

/-- `for _ in 0..n { f.write_char(c)?; } k` (external; for core/src/std_compat.rs:7) -/
def StdProg.repeated (c : Char) (k : StdProg) : Nat → StdProg
  | 0 => k
  | n + 1 => .put [c] (StdProg.repeated c k n)

/-- `Formatter::padding`: how many fill characters come before and after.
(external; for core/src/std_compat.rs:7) -/
def paddingSplit (align : Option Align) (default : Align) (n : Nat) : Nat × Nat :=
  match align.getD default with
  | .Left => (0, n)
  | .Right => (n, 0)
  | .Center => (n / 2, (n + 1) / 2)

/-- `Formatter::pad`. (external; for core/src/std_compat.rs:7) -/
def padStr (o : StdOpts) (s : Str) : StdProg :=
  let s := match o.precision with
    | some max => s.take max
    | none => s
  match o.width with
  | none => .put s (.done .ok)
  | some width =>
    if s.length ≥ width then .put s (.done .ok)
    else
      let (pre, post) := paddingSplit o.align .Left (width - s.length)
      .repeated o.fill (.put s (.repeated o.fill (.done .ok) post)) pre

/-- `write_prefix` of `Formatter::pad_integral`: the sign, then the prefix. (external; for
core/src/std_compat.rs:7) -/
def writePrefix (sign : Option Char) (pre : Option Str) (k : StdProg) : StdProg :=
  let k := match pre with
    | some p => .put p k
    | none => k
  match sign with
  | some c => .put [c] k
  | none => k

/-- `Formatter::pad_integral`. (external; for core/src/std_compat.rs:7) -/
def padIntegral (o : StdOpts) (nonnegative : Bool) (pre : Str) (buf : Str) : StdProg :=
  let sign := if !nonnegative then some '-' else if o.sign = some .Plus then some '+' else none
  let pre := if o.alternate then some pre else none
  let width := buf.length + (if sign.isSome then 1 else 0) + (pre.getD []).length
  match o.width with
  | none => writePrefix sign pre (.put buf (.done .ok))
  | some min =>
    if width ≥ min then writePrefix sign pre (.put buf (.done .ok))
    else if o.zero then
      writePrefix sign pre (.repeated '0' (.put buf (.done .ok)) (min - width))
    else
      let (before, after) := paddingSplit o.align .Right (min - width)
      .repeated o.fill (writePrefix sign pre (.put buf (.repeated o.fill (.done .ok) after))) before

/-- The digit `0`-`9`, `a`-`f` / `A`-`F`. (external; for core/src/std_compat.rs:7) -/
def radixDigit (upper : Bool) (d : Nat) : Char :=
  if d < 10 then Char.ofNat (48 + d) else if upper then Char.ofNat (65 + (d - 10)) else Char.ofNat (97 + (d - 10))

/-- `GenericRadix::fmt_int`: the digits from the last to the first, put before those there are already. `fuel` bounds
the number of digits. (external; for core/src/std_compat.rs:7) -/
def radixLoop (base : Nat) (upper : Bool) : Nat → Nat → Str → Str
  | 0, _, buf => buf
  | fuel + 1, x, buf =>
    let buf := radixDigit upper (x % base) :: buf
    if x / base = 0 then buf else radixLoop base upper fuel (x / base) buf

/-- (external; for core/src/std_compat.rs:7) -/
def radixDigits (base : Nat) (upper : Bool) (x : Nat) : Str := radixLoop base upper (x + 1) x []

/-- `impl Display` for an integer type. (external; for core/src/std_compat.rs:7) -/
def intDisplay (n : Int) (o : StdOpts) : StdProg :=
  padIntegral o (decide (0 ≤ n)) [] (radixDigits 10 false n.natAbs)

/-- `impl LowerHex` etc. for an integer type of so many bits: negative numbers in two's complement. (external; for
core/src/std_compat.rs:7) -/
def intRadix (base : Nat) (upper : Bool) (pre : Str) (bits : Nat) (n : Int) (o : StdOpts) : StdProg :=
  padIntegral o true pre (radixDigits base upper (n % (2 ^ bits : Nat)).toNat)

/-- `impl Debug` for an integer type. (external; for core/src/std_compat.rs:7) -/
def intDebug (bits : Nat) (n : Int) (o : StdOpts) : StdProg :=
  match o.debugHex with
  | some .Lower => intRadix 16 false (str "0x") bits n o
  | some .Upper => intRadix 16 true (str "0x") bits n o
  | none => intDisplay n o

/-- A `str`, `String` or `char` as an argument. (what `&#arg` is in macros/src/lib.rs:189-198; external) -/
def ArgVal.ofStr (s : Str) : ArgVal where
  std := fun
    | .Display, o => padStr o s
    | _, _ => .panic
  stylish := .panic

/-- A `bool` as an argument. (what `&#arg` is in macros/src/lib.rs:189-198; external) -/
def ArgVal.ofBool (b : Bool) : ArgVal where
  std := fun
    | .Display, o => padStr o (if b then str "true" else str "false")
    | .Debug, o => padStr o (if b then str "true" else str "false")
    | _, _ => .panic
  stylish := .panic

/-- An integer of a type of so many bits as an argument. (what `&#arg` is in macros/src/lib.rs:189-198; external) -/
def ArgVal.ofInt (bits : Nat) (n : Int) : ArgVal where
  std := fun
    | .Display, o => intDisplay n o
    | .Debug, o => intDebug bits n o
    | .LowerHex, o => intRadix 16 false (str "0x") bits n o
    | .UpperHex, o => intRadix 16 true (str "0x") bits n o
    | .Octal, o => intRadix 8 false (str "0o") bits n o
    | .Binary, o => intRadix 2 false (str "0b") bits n o
    | _, _ => .panic
  stylish := .panic

end Stylish
