import Verif.Spec.Circuit

/-!
# Specification of the LC ladder
-/

namespace Cbadc.Circuit.Spec

/-- A ladder of `M` capacitors of capacitance `C`, neighbours being joined by a total inductance `H`: `v m` is the voltage
over capacitor `m` and `i k` the current from capacitor `k` to capacitor `k + 1`.  A source `u` drives the first capacitor
through a total resistance `R`, and control `m` drives capacitor `m` with the current `C * g m * s m`. -/
def Ladder (M : ℕ) (H C R : ℝ) (g : ℕ → ℝ) (v i : ℕ → ℝ → ℝ) (u : ℝ → ℝ) (s : ℕ → ℝ → ℝ) : Prop :=
  (∀ m < M, ∀ t, HasDerivAt (v m)
    (((if m = 0 then (u t - v 0 t) / R else i (m - 1) t) - (if m + 1 < M then i m t else 0)) / C + g m * s m t) t) ∧
  ∀ k, k + 1 < M → ∀ t, HasDerivAt (i k) ((v k t - v (k + 1) t) / H) t

/-- `e` is the state at time `T` of a solution of `x' = f(t, x)` that starts at zero. -/
def EndState (N : ℕ) (T : ℝ) (f : ℝ → (ℕ → ℝ) → ℕ → ℝ) (e : ℕ → ℝ) : Prop :=
  ∃ x : ℕ → ℝ → ℝ, (∀ n < N, ContinuousOn (x n) (Set.Icc 0 T) ∧ x n 0 = 0 ∧
    ∀ t ∈ Set.Ioo 0 T, HasDerivAt (x n) (f t (fun k => x k t) n) t) ∧ ∀ n < N, e n = x n T

/-- A solver of initial value problems without numerical errors. -/
def ExactSolver (solve : ℕ → ℝ → (ℝ → (ℕ → ℝ) → ℕ → ℝ) → ℕ → ℝ) : Prop :=
  ∀ N T f, (∃ e, EndState N T f e) → EndState N T f (solve N T f)

end Cbadc.Circuit.Spec
