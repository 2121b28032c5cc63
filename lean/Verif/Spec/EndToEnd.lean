import Verif.Spec.FilterCoefficients

/-! # Specification: how far an estimate is from the input (C143) -/

namespace Cbadc.Filter.Spec

open Matrix

variable {N L P : ℕ}

/-- The difference of `v` and `u`, sent through the system `x' = A x + B u`, `y = C x` over `K` periods of length `T` (from some
initial state), leads to outputs `y` of an energy of at most `bound`. -/
def ErrorWithin (A : Matrix (Fin N) (Fin N) ℝ) (B : Matrix (Fin N) (Fin L) ℝ) (C : Matrix (Fin P) (Fin N) ℝ) (T : ℝ) (K : ℕ)
    (v u : ℕ → ℝ → Fin L → ℝ) (bound : ℝ) : Prop :=
  ∃ z R, Explains A B (fun _ _ => 0) T K (fun k t => v k t - u k t) z ∧
    Integrates T K (fun k t => (C *ᵥ z k t) ⬝ᵥ (C *ᵥ z k t)) R ∧ ∑ k ∈ Finset.range K, R k T ≤ bound

end Cbadc.Filter.Spec
