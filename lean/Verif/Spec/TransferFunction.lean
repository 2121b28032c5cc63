import Mathlib.LinearAlgebra.Matrix.ConjTranspose
import Mathlib.Analysis.Complex.Basic

/-! # Specifications for transfer functions of estimators -/

namespace Cbadc.Analog.Spec

open Matrix

/-- `P` is the Moore-Penrose inverse of `X` (documentation of `np.linalg.pinv`, used at
`src/cbadc/digital_estimator/batch_estimator.py:448,495`). -/
def IsPinv {n : ℕ} (X P : Matrix (Fin n) (Fin n) ℂ) : Prop :=
  X * P * X = X ∧ P * X * P = P ∧ (X * P)ᴴ = X * P ∧ (P * X)ᴴ = P * X

/-- The documented noise transfer function `F = G^H (G G^H + eta2 I)^{-1}`
(`src/cbadc/digital_estimator/batch_estimator.py:418`), by its defining equation. -/
def IsNTF {Nt L : ℕ} (eta2 : ℝ) (G : Matrix (Fin Nt) (Fin L) ℂ) (F : Matrix (Fin L) (Fin Nt) ℂ) : Prop :=
  F * (G * Gᴴ + (eta2 : ℂ) • 1) = Gᴴ

end Cbadc.Analog.Spec
