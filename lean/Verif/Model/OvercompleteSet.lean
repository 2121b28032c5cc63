import Mathlib.Analysis.Real.Sqrt
import Mathlib.Algebra.BigOperators.Fin

/-!
# Overcomplete sets (`src/cbadc/digital_control/utilities.py`, `overcomplete_set`)

Exact arithmetic over the reals; a matrix is the list of its columns.  Not modelled: a zero column, whose normalisation
gives `nan`, and an integer array, whose division in place raises `TypeError`.
-/

namespace Cbadc.Overcomplete

variable {N : ℕ}

/-- `np.linalg.norm(v, ord=2)`, `src/cbadc/digital_control/utilities.py:25`. -/
noncomputable def norm2 (v : Fin N → ℝ) : ℝ := √(∑ i, v i ^ 2)

/-- division of a vector by its norm, `src/cbadc/digital_control/utilities.py:25`, `41`. -/
noncomputable def normalise (v : Fin N → ℝ) : Fin N → ℝ := fun i => v i / norm2 v

/-- `cost_function`, `src/cbadc/digital_control/utilities.py:33-36`; the rows of `T` are the elements of the list. -/
noncomputable def cost (T : List (Fin N → ℝ)) (a : Fin N → ℝ) : ℝ :=
  √(T.map fun w => (∑ i, w i * a i) ^ 2).sum / norm2 a

/-- The loop that appends columns, `src/cbadc/digital_control/utilities.py:27-47`, for a given number of columns still missing.
`Opt T x0 x` says that `scipy.optimize.minimize` with the cost function for `T` and the start `x0` returns `x` as its
solution; the function value it returns is that at the solution. The random starts of lines 28-29 are arbitrary. -/
inductive Append (Opt : List (Fin N → ℝ) → (Fin N → ℝ) → (Fin N → ℝ) → Prop) :
    ℕ → List (Fin N → ℝ) → List (Fin N → ℝ) → Prop
  /-- line 27: there are enough columns -/
  | done (T : List (Fin N → ℝ)) : Append Opt 0 T T
  /-- lines 28-46: a hundred candidates, of which the first one with the largest cost is appended -/
  | next {n : ℕ} {T R : List (Fin N → ℝ)} (x0 x : Fin 100 → Fin N → ℝ) (i : Fin 100) (hopt : ∀ k, Opt T (x0 k) (x k))
      (hmax : ∀ k, cost T (x k) ≤ cost T (x i)) (hfirst : ∀ k < i, cost T (x k) < cost T (x i))
      (hrest : Append Opt n (T ++ [normalise (x i)]) R) : Append Opt (n + 1) T R

/-- `overcomplete_set`, `src/cbadc/digital_control/utilities.py:7-48`. -/
def OvercompleteSet (Opt : List (Fin N → ℝ) → (Fin N → ℝ) → (Fin N → ℝ) → Prop) (Gamma : List (Fin N → ℝ)) (M : ℕ)
    (R : List (Fin N → ℝ)) : Prop :=
  Append Opt (M - Gamma.length) (Gamma.map normalise) R

end Cbadc.Overcomplete
