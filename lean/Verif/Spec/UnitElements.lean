import Mathlib.Analysis.Real.Sqrt

/-! # Specification for the sets of control directions -/

namespace Cbadc.UnitElements.Spec

/-- The length of the vector of scalar products of `v` with the given vectors, relative to the length of `v`: zero if `v` is
orthogonal to all of them. -/
noncomputable def correlation {N : ℕ} (set : List (Fin N → ℝ)) (v : Fin N → ℝ) : ℝ :=
  √(set.map fun w => (∑ i, v i * w i) ^ 2).sum / √(∑ i, v i ^ 2)

end Cbadc.UnitElements.Spec
