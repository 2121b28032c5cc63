import Mathlib.Analysis.Complex.Basic
import Mathlib.FieldTheory.RatFunc.Basic
import Mathlib.Analysis.Calculus.Deriv.Basic
import Mathlib.Analysis.SpecialFunctions.Trigonometric.Basic

/-! # Specification: the response of a linear system to a sinusoid -/

namespace Cbadc.Analog.Spec

/-- Column `x` is a steady response at `ω` of `dx/dt = A x + b u`: the complex amplitudes for an input of amplitude one
balance. -/
def IsResponse {n : ℕ} (A : Fin n → Fin n → ℂ) (b : Fin n → ℂ) (ω : ℝ) (x : Fin n → ℂ) : Prop :=
  ∀ i, ω * Complex.I * x i = ∑ k, A i k * x k + b i

/-- The system does not oscillate by itself at `ω`. -/
def NoResonance {n : ℕ} (A : Fin n → Fin n → ℂ) (ω : ℝ) : Prop :=
  ∀ x : Fin n → ℂ, IsResponse A (fun _ => 0) ω x → x = 0

/-- The waveforms `x` solve the differential equation with the input `cos (ω t)`. -/
def SolvesCosine {n : ℕ} (A : Fin n → Fin n → ℝ) (b : Fin n → ℝ) (ω : ℝ) (x : ℝ → Fin n → ℝ) : Prop :=
  ∀ t i, HasDerivAt (fun τ => x τ i) (∑ k, A i k * x t k + b i * Real.cos (ω * t)) t

/-- Squared length of a complex vector. -/
noncomputable def sqLen {n : ℕ} (x : Fin n → ℂ) : ℝ := ∑ i, ‖x i‖ ^ 2

/-- A symbolic simplifier is right: it returns a proper fraction of the same value. -/
def RightFraction (num den : RatFunc ℂ → Polynomial ℂ) : Prop :=
  ∀ r, den r ≠ 0 ∧ algebraMap (Polynomial ℂ) (RatFunc ℂ) (num r) / algebraMap (Polynomial ℂ) (RatFunc ℂ) (den r) = r

end Cbadc.Analog.Spec
