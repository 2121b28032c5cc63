import Mathlib.Analysis.SpecialFunctions.Sqrt
import Verif.Model.AnalogSystem

/-!
# Chain-of-integrators and leap-frog systems
(`src/cbadc/analog_system/chain_of_integrators.py`, `src/cbadc/analog_system/leap_frog.py`)

Real numbers, because the rows of `Gamma_tildeT` are divided by their Euclidean norm.  The `if` statements at
the top of both constructors build an exception object without raising it, so they have no effect and are
left out.
-/

namespace Cbadc.Analog
open Finset

/-- A square numpy array with its size (the summands of
`src/cbadc/analog_system/chain_of_integrators.py:109`, `src/cbadc/analog_system/leap_frog.py:109`). -/
structure Sq where
  n : ℕ
  f : ℕ → ℕ → ℝ

/-- `np.diag(v)` (`src/cbadc/analog_system/chain_of_integrators.py:109,118`). -/
def diag0 (v : List ℝ) : Sq := ⟨v.length, fun r c => if r = c then v.getD r 0 else 0⟩

/-- `np.diag(v, k=-1)` (`src/cbadc/analog_system/chain_of_integrators.py:109`): one row and column more than
`v` has entries. -/
def diagLow (v : List ℝ) : Sq := ⟨v.length + 1, fun r c => if r = c + 1 then v.getD c 0 else 0⟩

/-- `np.diag(v, k=1)` (`src/cbadc/analog_system/leap_frog.py:109`). -/
def diagUp (v : List ℝ) : Sq := ⟨v.length + 1, fun r c => if c = r + 1 then v.getD r 0 else 0⟩

/-- Sum of two square arrays with numpy's broadcasting of a 1 x 1 array
(`src/cbadc/analog_system/chain_of_integrators.py:109`, `src/cbadc/analog_system/leap_frog.py:109`). -/
def addSq (X Y : Sq) : Res Sq :=
  if X.n = Y.n then .ok ⟨X.n, fun r c => X.f r c + Y.f r c⟩
  else if X.n = 1 then .ok ⟨Y.n, fun r c => X.f 0 0 + Y.f r c⟩
  else if Y.n = 1 then .ok ⟨X.n, fun r c => X.f r c + Y.f 0 0⟩
  else .error .valueError

/-- `Gamma`: a single column is put on a diagonal, `src/cbadc/analog_system/chain_of_integrators.py:117-120`,
`src/cbadc/analog_system/leap_frog.py:117-120`; result rows, columns, entries.  A one-dimensional `kappa` has
no `shape[1]`. -/
def gammaOf : Arr ℝ → Res (ℕ × ℕ × (ℕ → ℕ → ℝ))
  | .vec _ _ => .error .indexError
  | .mat r c f => if c = 1 then .ok (r, r, fun i j => if i = j then f i 0 else 0) else .ok (r, c, f)

/-- `Gamma_tildeT`: minus the transpose with normalised rows,
`src/cbadc/analog_system/chain_of_integrators.py:122-126`, `src/cbadc/analog_system/leap_frog.py:122-126`, for a
`Gamma` with `r` rows.  A zero row (numpy: `nan`) gives zeros here. -/
noncomputable def gammaTOf (r : ℕ) (G : ℕ → ℕ → ℝ) : ℕ → ℕ → ℝ := fun i j =>
  (-G j i) / Real.sqrt (∑ k ∈ range r, (-G k i) ^ 2)

/-- The common end of both constructors, `src/cbadc/analog_system/chain_of_integrators.py:110-129`,
`src/cbadc/analog_system/leap_frog.py:110-129`; `B[0] = beta[0]` raises for an empty `beta`. -/
noncomputable def finish (beta : List ℝ) (A : Sq) (kappa : Arr ℝ) : Res (Sys ℝ) :=
  if beta = [] then .error .indexError
  else
    match gammaOf kappa with
    | .error e => .error e
    | .ok (r, c, G) =>
      Sys.new (.mat A.n A.n A.f) (.mat beta.length 1 fun i _ => if i = 0 then beta.getD 0 0 else 0)
        (.mat beta.length beta.length fun i j => if i = j then 1 else 0)
        (some (.mat r c G)) (some (.mat c r (gammaTOf r G))) none none none

/-- `ChainOfIntegrators.__init__`, `src/cbadc/analog_system/chain_of_integrators.py:89-129`, for
one-dimensional `beta` and `rho`. -/
noncomputable def chainOfIntegrators (beta rho : List ℝ) (kappa : Arr ℝ) : Res (Sys ℝ) :=
  match addSq (diag0 rho) (diagLow beta.tail) with
  | .error e => .error e
  | .ok A => finish beta A kappa

/-- `LeapFrog.__init__`, `src/cbadc/analog_system/leap_frog.py:88-129`, for one-dimensional `beta`, `alpha`
and `rho`. -/
noncomputable def leapFrog (beta alpha rho : List ℝ) (kappa : Arr ℝ) : Res (Sys ℝ) :=
  match addSq (diagUp alpha) (diagLow beta.tail) with
  | .error e => .error e
  | .ok A' =>
    match addSq A' (diag0 rho) with
    | .error e => .error e
    | .ok A => finish beta A kappa

end Cbadc.Analog
