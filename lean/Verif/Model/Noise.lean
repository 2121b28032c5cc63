import Mathlib.Data.Matrix.Mul
import Verif.Model.PreComputed

/-!
# Thermal noise of the simulators (`state_noise_covariance_matrix`)

`src/cbadc/simulator/_base_simulator.py:91-95` and the noise branches of the two simulators
(`src/cbadc/simulator/numerical_simulator.py:182-187,610-615`).  `numpy.linalg.cholesky` is modelled by what it
returns, and the values of `rng.normal` are given from outside as `draw k`: the vector returned by the `k`-th call.
-/

namespace Cbadc.Simulate
open Cbadc.Analog Cbadc.Control

/-- What `numpy.linalg.cholesky(a)` reads of its argument (`src/cbadc/simulator/_base_simulator.py:95`): the diagonal
and what is below; whether `a` is symmetric is not checked. -/
def lowerSym {P : ℕ} (a : Matrix (Fin P) (Fin P) ℝ) : Matrix (Fin P) (Fin P) ℝ := Matrix.of fun i j =>
  if j ≤ i then a i j else a j i

/-- `L` is the Cholesky factor of `a` (`src/cbadc/simulator/_base_simulator.py:95`): lower triangular with a positive
diagonal, and `L L^T` is the matrix that was read. -/
structure IsCholesky {P : ℕ} (a L : Matrix (Fin P) (Fin P) ℝ) : Prop where
  lower : ∀ i j, i < j → L i j = 0
  diag : ∀ i, 0 < L i i
  prod : L * L.transpose = lowerSym a

open Classical in
/-- `numpy.linalg.cholesky(a)`, `src/cbadc/simulator/_base_simulator.py:95`: the factor if there is one and otherwise
`LinAlgError`, which is a `ValueError`.  Simplified: exact arithmetic. -/
noncomputable def cholesky {P : ℕ} (a : Matrix (Fin P) (Fin P) ℝ) : Res (Matrix (Fin P) (Fin P) ℝ) :=
  if h : ∃ L, IsCholesky a L then .ok h.choose else .error .valueError

/-- The attribute `_cov_deviation`; `none` if `noisy` is false (`src/cbadc/simulator/_base_simulator.py:91-95`). -/
abbrev Deviation := Option (Σ P : ℕ, Matrix (Fin P) (Fin P) ℝ)

/-- The argument `state_noise_covariance_matrix`: an array with `r` rows and `c` columns
(`src/cbadc/simulator/_base_simulator.py:65`). -/
structure CovArg where
  r : ℕ
  c : ℕ
  a : ℕ → ℕ → ℝ

/-- The constructor's treatment of `state_noise_covariance_matrix`, `src/cbadc/simulator/_base_simulator.py:91-95`
(`LinAlgError` unless it is square).  Its size is not compared with the analog system. -/
noncomputable def deviation : Option CovArg → Res Deviation
  | none => .ok none
  | some ⟨r, c, a⟩ =>
    if r ≠ c then .error .valueError
    else
      match cholesky (Matrix.of fun i j : Fin r => a i j) with
      | .error e => .error e
      | .ok L => .ok (some ⟨r, L⟩)

/-- The noise branch of `_ordinary_differential_solution`,
`src/cbadc/simulator/numerical_simulator.py:182-187,610-615`: `np.dot` of the deviation with `N` normal values (a
`ValueError` unless the sizes agree), times the clock period. -/
noncomputable def kick (N : ℕ) (T : ℝ) : Deviation → (ℕ → ℝ) → (ℕ → ℝ) → Res (ℕ → ℝ)
  | none, _, x => .ok x
  | some ⟨P, L⟩, draw, x =>
    if P ≠ N then .error .valueError
    else .ok fun n => x n + (if h : n < P then ∑ c, L ⟨n, h⟩ c * draw c else 0) * T

/-- One call of `__next__` of `FullSimulator` with noise, `src/cbadc/simulator/numerical_simulator.py:85-189`: the
noise is added to the state at the end of the period (lines 182-187). -/
structure NPeriod {M : ℕ} (cfg : Cfg M) (dev : Deviation) (draw : ℕ → ℝ) (st : St M) (φ : ℝ → ℕ → ℝ) (st' : St M) :
    Prop where
  step : ∃ x, Period cfg st φ { st' with x := x } ∧ kick cfg.sys.N cfg.dc.T dev draw x = .ok st'.x

/-- A whole simulation with noise (`src/cbadc/simulator/numerical_simulator.py:85-88,182-187`). -/
def NRun {M : ℕ} (cfg : Cfg M) (dev : Deviation) (draw : ℕ → ℕ → ℝ) (st : ℕ → St M) (φ : ℕ → ℝ → ℕ → ℝ) : Prop :=
  ∀ k, NPeriod cfg dev (draw k) (st k) (φ k) (st (k + 1))

/-- One call of `__next__` of `PreComputedControlSignalsSimulator` with noise,
`src/cbadc/simulator/numerical_simulator.py:483-617` (noise in lines 610-615). -/
noncomputable def PCfg.noisyNext {M : ℕ} (cfg : PCfg M) (ctrl pw : ℕ → ℕ → ℝ) (dev : Deviation) (draw : ℕ → ℝ)
    (st : St M) : Res (St M) :=
  match cfg.next ctrl pw st with
  | .error e => .error e
  | .ok st' =>
    match kick cfg.sys.N cfg.dc.T dev draw st'.x with
    | .error e => .error e
    | .ok x => .ok { st' with x := x }

end Cbadc.Simulate
