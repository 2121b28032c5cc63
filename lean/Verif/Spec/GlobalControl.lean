import Mathlib.Analysis.Calculus.Deriv.Basic
import Mathlib.Analysis.Calculus.Deriv.Prod
import Mathlib.Data.Matrix.Mul
import Mathlib.Data.Set.Countable
import Mathlib.MeasureTheory.Integral.IntervalIntegral.Basic

/-!
# Specifications for the global control

Trajectories of a linear system whose drive may jump, and the energy of the output.
-/

namespace Cbadc.Global.Spec

open Matrix Set

variable {N P : ℕ}

/-- `x` solves `x' = X x + v(t)` on `[a, b]`: it is continuous, and the equation holds but for countably many
times (the jumps of `v`). -/
structure Solves (X : Matrix (Fin N) (Fin N) ℝ) (v : ℝ → Fin N → ℝ) (a b : ℝ) (x : ℝ → Fin N → ℝ) : Prop where
  cont : ContinuousOn x (Icc a b)
  ode : ∃ J : Set ℝ, J.Countable ∧ ∀ t ∈ Ioo a b \ J, HasDerivAt x (X *ᵥ x t + v t) t

/-- `J` is the integral of `w` from `a` on. -/
structure Accumulates (w : ℝ → ℝ) (a b : ℝ) (J : ℝ → ℝ) : Prop where
  start : J a = 0
  cont : ContinuousOn J (Icc a b)
  deriv : ∃ D : Set ℝ, D.Countable ∧ ∀ t ∈ Ioo a b \ D, HasDerivAt J (w t) t

/-- The energy of the output `C x` on `[a, b]`. -/
noncomputable def energy (C : Matrix (Fin P) (Fin N) ℝ) (a b : ℝ) (x : ℝ → Fin N → ℝ) : ℝ :=
  ∫ t in a..b, (C *ᵥ x t) ⬝ᵥ (C *ᵥ x t)

end Cbadc.Global.Spec
