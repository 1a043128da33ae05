/-
Model of the fields of the public types, as far as Rust's auto traits look at them (style/src/lib.rs, core/src/*.rs,
ansi/src/*.rs, html/src/html.rs, plain/src/*.rs), and of Rust's rules for these traits.

Simplified: lifetimes are left out; numbers, `char`, `bool`, `str`, enums without fields and std's `String` are one type,
`scalar`, and `Vec<T>` and `Option<T>` are as good as `T`.
-/

namespace Stylish.Types

/-- Rust's auto traits (std, external), which none of the files implements by hand (style/src/lib.rs:1-313 and all
others). -/
inductive Auto where
  | send | sync | unpin | unwindSafe | refUnwindSafe
  deriving DecidableEq, Repr

/-- Types: of values that have all auto traits, chosen by the user, references, trait objects without auto traits in
their bounds, and structs (as nested pairs). (for example core/src/formatter.rs:44-48) -/
inductive Ty where
  | scalar
  | var (i : Nat)
  | shared (t : Ty)
  | mutable (t : Ty)
  | dyn
  | pair (a b : Ty)
  deriving DecidableEq, Repr

/-- A struct with these fields (for example core/src/formatter.rs:44-48). -/
def struct (fields : List Ty) : Ty := fields.foldr .pair .scalar

/-- Rust's rules for auto traits (std, external): a struct has one if its fields do; `&T` is `Send` if `T` is `Sync`, and
`UnwindSafe` if `T` is `RefUnwindSafe`; `&mut T` is never `UnwindSafe`; references are `Unpin`. `given` says which traits
the types chosen by the user have. (for the types of core/src/formatter.rs:27-48 and so on) -/
def has (given : Nat → Auto → Bool) : Auto → Ty → Bool
  | _, .scalar => true
  | a, .var i => given i a
  | a, .pair s t => has given a s && has given a t
  | _, .dyn => false
  | .send, .shared t => has given .sync t
  | .sync, .shared t => has given .sync t
  | .unpin, .shared _ => true
  | .unwindSafe, .shared t => has given .refUnwindSafe t
  | .refUnwindSafe, .shared t => has given .refUnwindSafe t
  | .send, .mutable t => has given .send t
  | .sync, .mutable t => has given .sync t
  | .unpin, .mutable _ => true
  | .unwindSafe, .mutable _ => false
  | .refUnwindSafe, .mutable t => has given .refUnwindSafe t

/-- style/src/lib.rs:18-53 `enum Color`. -/
def color : Ty := .scalar
/-- style/src/lib.rs:58-65 `enum Intensity`. -/
def intensity : Ty := .scalar
/-- style/src/lib.rs:71-78 `struct Style`. -/
def style : Ty := struct [color, color, intensity]
/-- style/src/lib.rs:86-93 `struct StyleDiff`. -/
def styleDiff : Ty := struct [color, color, intensity]
/-- style/src/lib.rs:106 `struct Foreground`. -/
def foreground : Ty := struct [color]
/-- style/src/lib.rs:119 `struct Background`. -/
def background : Ty := struct [color]
/-- core/src/string.rs:43-46 `struct String`. -/
def string : Ty := struct [.scalar, struct [.scalar, style]]
/-- core/src/formatter.rs:27-35 `struct FormatterArgs`: two of the fields are `Option<&usize>`. -/
def formatterArgs : Ty := struct [.scalar, .scalar, .scalar, .scalar, .shared .scalar, .shared .scalar, .scalar]
/-- core/src/formatter.rs:44-48 `struct Formatter`. -/
def formatter : Ty := struct [style, formatterArgs, .mutable .dyn]
/-- core/src/arguments.rs:56-60 `struct Arguments`. -/
def arguments : Ty := struct [.shared .dyn]
/-- ansi/src/ansi.rs:17-20 `struct Ansi`. -/
def ansi (t : Ty) : Ty := struct [t, style]
/-- html/src/html.rs:21-24 `struct Html`. -/
def html (t : Ty) : Ty := struct [t, style]
/-- plain/src/plain.rs:13-15 `struct Plain`. -/
def plain (t : Ty) : Ty := struct [t]
/-- ansi/src/io.rs:21-24 `struct Ansi`. -/
def ioAnsi (t : Ty) : Ty := struct [t, style]
/-- plain/src/io.rs:19-21 `struct Plain`. -/
def ioPlain (t : Ty) : Ty := struct [t]

end Stylish.Types
