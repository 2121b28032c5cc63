import Mathlib.Data.Nat.Notation
import Verif.Model.Basic

/-! Specification of a control signal that is replaced by another one, used by C158. -/

namespace Cbadc.Spec

/-- The signal that reads like `src` for `n` samples and then like `src'` from its beginning. -/
def handOver {V : Type*} (n : ℕ) (src src' : ℕ → Res V) : ℕ → Res V :=
  fun i => if i < n then src i else src' (i - n)

end Cbadc.Spec
