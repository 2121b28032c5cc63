import Mathlib.Analysis.SpecialFunctions.Trigonometric.Basic
import Mathlib.LinearAlgebra.Matrix.Notation
import Verif.Model.Estimator
import Verif.Model.Parallel

/-!
# Lag, warm-up and demodulation of the estimators (`src/cbadc/digital_estimator/batch_estimator.py:194-232,386-399`)

`filter_lag`, `warm_up` and `demodulate` are inherited by every estimator and use its `__next__`, here `next`.
-/

namespace Cbadc.Estimator
open Matrix

/-- The attribute `_filter_lag` beside the rest of an estimator's state:
`src/cbadc/digital_estimator/batch_estimator.py:146,212`. -/
structure Lagged (S : Type*) where
  lag : ℤ
  st : S

/-- `_filter_lag` of a new `FIRFilter`, `src/cbadc/digital_estimator/fir_estimator.py:135`. -/
def firLag (K2 : ℕ) : ℤ := K2 - 2

/-- `_filter_lag` of a new `IIRFilter`, `src/cbadc/digital_estimator/iir_estimator.py:120`. -/
def iirLag (K2 : ℕ) : ℤ := K2 - 2

/-- `_filter_lag` of a new `BatchEstimator`, `src/cbadc/digital_estimator/batch_estimator.py:146`. -/
def batchLag : ℤ := -1

/-- `_filter_lag` of a new `ParallelEstimator`, `src/cbadc/digital_estimator/parallel_digital_estimator.py:140`. -/
def parallelLag : ℤ := -1

variable {S V : Type*}

/-- The loop `for _ in range(samples): self.__next__()`,
`src/cbadc/digital_estimator/batch_estimator.py:227-228`. -/
def discard (next : S → Res V × S) : ℕ → S → Res Unit × S
  | 0, s => (.ok (), s)
  | n + 1, s =>
    match next s with
    | (.error e, s') => (.error e, s')
    | (.ok _, s') => discard next n s'

/-- The loop `while self._filter_lag > 0`, `src/cbadc/digital_estimator/batch_estimator.py:230-232`.  The first
argument bounds the number of rounds; `warmUp` supplies the lag, which is never exhausted. -/
def drain (next : S → Res V × S) : ℕ → Lagged S → Res Unit × Lagged S
  | 0, w => (.ok (), w)
  | n + 1, w =>
    if 0 < w.lag then
      match next w.st with
      | (.error e, s') => (.error e, ⟨w.lag, s'⟩)
      | (.ok _, s') => drain next n ⟨w.lag - 1, s'⟩
    else (.ok (), w)

/-- `warm_up(samples=0)`, `src/cbadc/digital_estimator/batch_estimator.py:214-232`. -/
def warmUp (next : S → Res V × S) (samples : ℤ) (w : Lagged S) : Res Unit × Lagged S :=
  if 0 < samples then
    match discard next samples.toNat w.st with
    | (r, s') => (r, ⟨w.lag, s'⟩)
  else drain next w.lag.toNat w

/-- What is done with an estimator: an estimate is taken, or it is warmed up.
`src/cbadc/digital_estimator/batch_estimator.py:214,343`. -/
inductive Use
  | next
  | warmUp (samples : ℤ)

/-- One of them, `src/cbadc/digital_estimator/batch_estimator.py:214-232,343-384`; an exception leaves the state it
left behind. -/
def use (next : S → Res V × S) (w : Lagged S) : Use → Lagged S
  | .next => ⟨w.lag, (next w.st).2⟩
  | .warmUp n => (warmUp next n w).2

/-! ### Demodulation -/

/-- `_rotation_matrix(phi)`, `src/cbadc/digital_estimator/batch_estimator.py:18-19`. -/
noncomputable def rotation (phi : ℝ) : Matrix (Fin 2) (Fin 2) ℝ :=
  !![Real.cos phi, -Real.sin phi; Real.sin phi, Real.cos phi]

/-- Entry `(i, j)` of `np.kron(R, np.eye(h))` for a matrix `R` with two rows and columns:
`src/cbadc/digital_estimator/batch_estimator.py:395-398`. -/
noncomputable def kronEye (R : Matrix (Fin 2) (Fin 2) ℝ) (h : ℕ) (i j : Fin (2 * h)) : ℝ :=
  R i.divNat j.divNat * (if i.modNat = j.modNat then 1 else 0)

/-- An estimator with its counter `_time_index`, `src/cbadc/digital_estimator/batch_estimator.py:188,356`. -/
structure Timed (S : Type*) where
  time : ℕ
  st : S

/-- `__next__` with `self._time_index += 1`: `src/cbadc/digital_estimator/batch_estimator.py:356`,
`src/cbadc/digital_estimator/parallel_digital_estimator.py:272`,
`src/cbadc/digital_estimator/fir_estimator.py:250`, `src/cbadc/digital_estimator/iir_estimator.py:198`: once for each
estimate that is returned. -/
def timed (next : S → Res V × S) (t : Timed S) : Res V × Timed S :=
  match next t.st with
  | (.error e, s') => (.error e, ⟨t.time, s'⟩)
  | (.ok v, s') => (.ok v, ⟨t.time + 1, s'⟩)

/-- `demodulate()`, `src/cbadc/digital_estimator/batch_estimator.py:386-399`; `freq` is `_modulation_frequency`
(`src/cbadc/digital_estimator/batch_estimator.py:189-192`, zero if none was given).  The matrix is computed before
the estimate. -/
noncomputable def demodulate {L : ℕ} (freq : ℝ) (next : S → Res (Fin L → ℝ) × S) (t : Timed S) :
    Res (Fin L → ℝ) × Timed S :=
  if h : L % 2 = 0 then
    match timed next t with
    | (.error e, t') => (.error e, t')
    | (.ok v, t') =>
      (.ok (fun i => ∑ j, kronEye (rotation (-freq * t.time)) (L / 2)
          (i.cast (Nat.mul_div_cancel' (Nat.dvd_of_mod_eq_zero h)).symm)
          (j.cast (Nat.mul_div_cancel' (Nat.dvd_of_mod_eq_zero h)).symm) * v j), t')
  else (.error .exception, t)

end Cbadc.Estimator
