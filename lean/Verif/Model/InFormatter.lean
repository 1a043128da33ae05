import Verif.Model.Formatter
import Verif.Model.Sink
/-
A formatter as a stream for text: `impl core::fmt::Write for Formatter`. So a writer can be put around the formatter an
implementation of `Display` is given (`Html::new(&mut *f)`; std's `core::fmt::Write for &mut T` passes every call on).
-/

namespace Stylish

/-- core/src/formatter.rs:188-193 `impl core::fmt::Write for Formatter`. -/
instance {W : Type} [Write W] : FmtWrite (Formatter W) := ⟨Formatter.writeStr⟩

end Stylish
