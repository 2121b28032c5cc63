import Mathlib.Data.Real.Basic
import Mathlib.Data.List.Basic

/-!
# Clock edges in sampled waveforms, independently of the code
-/

namespace Cbadc.NgSpice.Spec

open Classical in
/-- The time points among the first `n` where the clock has become low: it is low there, and it was not low at the
time point before (or there is none before). -/
noncomputable def edges (low : ℕ → Prop) (n : ℕ) : List ℕ :=
  (List.range n).filter fun i => decide (low i ∧ (i = 0 ∨ ¬ low (i - 1)))

/-- The digit for a voltage relative to the supply: one third each for low, middle and high. -/
def IsDigit (x d : ℝ) : Prop := (x < 1 / 3 ∧ d = 0) ∨ (1 / 3 ≤ x ∧ x ≤ 2 / 3 ∧ d = 1 / 2) ∨ (2 / 3 < x ∧ d = 1)

end Cbadc.NgSpice.Spec
