import Verif.Model.DebugMore
import Verif.Model.Io
/-
`{:?}` and `{:#?}` of the writers of bytes and of the changes of a style: the `derive(Debug)`s at /repo/ansi/src/io.rs:20,
/repo/plain/src/io.rs:18 and /repo/style/src/lib.rs:84, 105 and 118, the writers on a `Vec<u8>` only.
-/

namespace Stylish

/-- `alloc::vec::Vec<u8>` as a stream (external; ansi/src/io.rs:15, plain/src/io.rs:12). -/
structure ByteVector where
  bytes : Bytes
  deriving DecidableEq, Repr

/-- `impl Write for Vec<u8>` of std (external; for ansi/src/io.rs:15): takes everything at once, with a `write_all` of its own. -/
instance : StdIoWrite ByteVector where
  write b t := (.ok b.length, ⟨t.bytes ++ b⟩)
  flush t := (.ok (), t)
  writeAll _ b t := (.ok (), ⟨t.bytes ++ b⟩)

/-- `derive(Debug)` on the items of a `Vec<u8>` (external; for ansi/src/io.rs:22). -/
def debugBytes : Bytes → DebugNodes
  | [] => .nil
  | b :: rest => .cons (.val (.nat b.toNat)) (debugBytes rest)

/-- ansi/src/io.rs:20 `derive(Debug)` on `io::Ansi`. -/
def IoAnsi.debug {fuel : Nat} (a : IoAnsi fuel ByteVector) : DebugNode :=
  .struct (str "Ansi") (.cons (str "inner") (.list (debugBytes a.inner.bytes)) (.cons (str "current") (.val a.current.debug) .nil))

/-- plain/src/io.rs:18 `derive(Debug)` on `io::Plain`. -/
def IoPlain.debug {fuel : Nat} (a : IoPlain fuel ByteVector) : DebugNode :=
  .struct (str "Plain") (.cons (str "inner") (.list (debugBytes a.inner.bytes)) .nil)

/-- style/src/lib.rs:84 `derive(Debug)` on `StyleDiff`. -/
def StyleDiff.debug (d : StyleDiff) : DebugVal :=
  .struct (str "StyleDiff") (.cons (str "foreground") (optDebug Color.debug d.foreground)
    (.cons (str "background") (optDebug Color.debug d.background)
      (.cons (str "intensity") (optDebug Intensity.debug d.intensity) .nil)))

/-- style/src/lib.rs:105 `derive(Debug)` on `Foreground`. -/
def Foreground.debug (x : Foreground) : DebugVal := .tuple (str "Foreground") x.color.debug

/-- style/src/lib.rs:118 `derive(Debug)` on `Background`. -/
def Background.debug (x : Background) : DebugVal := .tuple (str "Background") x.color.debug

/-- `format!("{:?}", x)`, and with `alternate` `format!("{:#?}", x)` (external; for style/src/lib.rs:84, 105, 118). -/
def DebugVal.shownAs (alternate : Bool) (x : DebugVal) : Str := if alternate then x.pretty else x.plain

end Stylish
