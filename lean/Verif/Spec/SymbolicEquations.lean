import Mathlib.Analysis.Calculus.Deriv.Basic
import Verif.Model.SymbolicEquations

/-! # Specification: solving symbolic state equations -/

namespace Cbadc.Analog.Spec
open Set Finset

/-- value of the right-hand side of a symbolic equation when function number `n` is `x n` and the symbolic input
is `u` (specification) -/
def rhsValue (e : SymEq ℝ) (x : ℕ → ℝ → ℝ) (u : ℝ → ℝ) (t : ℝ) : ℝ := (e.terms.map fun p => p.1 * x p.2 t).sum + e.input * u t

/-- the functions `x` solve the symbolic equations on `[0, T]`; one-sided derivatives, so that inputs and controls
may jump (specification) -/
def SolvesSym (T : ℝ) (eqs : List (SymEq ℝ)) (x : ℕ → ℝ → ℝ) (u : ℝ → ℝ) : Prop :=
  ∀ e ∈ eqs, ContinuousOn (x e.of) (Icc 0 T) ∧ ∀ t ∈ Ico 0 T, HasDerivWithinAt (x e.of) (rhsValue e x u t) (Ici t) t

/-- states `x 0, ..., x (N-1)` driven by the single signal `u` through the vector `b`:
`x' = A x + b u` on `[0, T]` (specification) -/
def Driven (N : ℕ) (A : ℕ → ℕ → ℝ) (b : ℕ → ℝ) (T : ℝ) (x : ℕ → ℝ → ℝ) (u : ℝ → ℝ) : Prop :=
  ∀ n < N, ContinuousOn (x n) (Icc 0 T) ∧
    ∀ t ∈ Ico 0 T, HasDerivWithinAt (x n) ((∑ c ∈ range N, A n c * x c t) + b n * u t) (Ici t) t

/-- `x` is a trajectory of the analog system on `[0, T]` for all its inputs `u` and controls `s`: its derivative is
what `AnalogSystem.derivative` returns (specification) -/
def Trajectory (g : Sys ℝ) (T : ℝ) (u s : ℕ → ℝ → ℝ) (x : ℕ → ℝ → ℝ) : Prop :=
  (∀ n < g.N, ContinuousOn (x n) (Icc 0 T)) ∧
    ∀ t ∈ Ico 0 T, ∃ d, g.derivative ⟨g.N, fun n => x n t⟩ ⟨g.L, fun l => u l t⟩ ⟨g.M, fun m => s m t⟩ = .ok d ∧
      ∀ n < g.N, HasDerivWithinAt (x n) (d.v n) (Ici t) t

end Cbadc.Analog.Spec
