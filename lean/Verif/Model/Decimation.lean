import Mathlib.Analysis.SpecialFunctions.Complex.Circle
import Mathlib.Algebra.BigOperators.Group.Finset.Basic
import Verif.Model.Basic

/-!
# Demodulation and decimation (`src/cbadc/digital_estimator/decimation_and_demodulation.py`)

Samples are complex numbers with exact arithmetic.
-/

namespace Cbadc.Decimation
open Finset Complex

/-- A numpy array of one or two dimensions: its shape and its entries (entries outside the shape are
meaningless).  The arrays handed to `src/cbadc/digital_estimator/decimation_and_demodulation.py:23-39`; arrays of
more dimensions are not modelled. -/
inductive Arr
  | d1 (n : ℕ) (x : ℕ → ℂ)
  | d2 (r c : ℕ) (x : ℕ → ℕ → ℂ)

/-- `signal.shape[axis]` (`src/cbadc/digital_estimator/decimation_and_demodulation.py:35`); Python tuples accept
negative indices and raise `IndexError` otherwise. -/
def Arr.shapeAt : Arr → ℤ → Res ℕ
  | .d1 n _, a => if a = 0 ∨ a = -1 then .ok n else .error .indexError
  | .d2 r c _, a =>
    if a = 0 ∨ a = -2 then .ok r else if a = 1 ∨ a = -1 then .ok c else .error .indexError

/-- `signal * v` with a one-dimensional `v` of length `n`: numpy aligns `v` with the last axis
(`src/cbadc/digital_estimator/decimation_and_demodulation.py:36-39`); axes of length one are repeated, other
lengths that differ raise `ValueError`. -/
def Arr.mulLast : Arr → ℕ → (ℕ → ℂ) → Res Arr
  | .d1 m x, n, v =>
    if m = n then .ok (.d1 m fun k => x k * v k)
    else if n = 1 then .ok (.d1 m fun k => x k * v 0)
    else if m = 1 then .ok (.d1 n fun k => x 0 * v k)
    else .error .valueError
  | .d2 r c x, n, v =>
    if c = n then .ok (.d2 r c fun i k => x i k * v k)
    else if n = 1 then .ok (.d2 r c fun i k => x i k * v 0)
    else if c = 1 then .ok (.d2 r n fun i k => x i 0 * v k)
    else .error .valueError

/-- `demodulate(signal, Omega, axis)`, `src/cbadc/digital_estimator/decimation_and_demodulation.py:22-39`. -/
noncomputable def demodulate (s : Arr) (Ω : ℝ) (axis : ℤ := 0) : Res Arr := do
  let n ← s.shapeAt axis
  s.mulLast n fun k => exp (-I * Ω * k)

/-- `scipy.fft.fft` of `n` samples, used by `scipy.signal.resample`
(`src/cbadc/digital_estimator/decimation_and_demodulation.py:19`). -/
noncomputable def fft (n : ℕ) (x : ℕ → ℂ) (k : ℕ) : ℂ := ∑ j ∈ range n, x j * exp (-2 * Real.pi * I * k * j / n)

/-- `scipy.fft.ifft` of `n` bins, used by `scipy.signal.resample`
(`src/cbadc/digital_estimator/decimation_and_demodulation.py:19`). -/
noncomputable def ifft (n : ℕ) (X : ℕ → ℂ) (j : ℕ) : ℂ :=
  (∑ k ∈ range n, X k * exp (2 * Real.pi * I * k * j / n)) / n

/-- The bins kept by `scipy.signal.resample(x, num)` when `0 < num ≤ n`
(`src/cbadc/digital_estimator/decimation_and_demodulation.py:19`): bins `0 … num/2` are copied from the front,
the rest from the back, and for even `num < n` the two bins at `± num/2` are added. -/
noncomputable def keep (n num : ℕ) (X : ℕ → ℂ) (k : ℕ) : ℂ :=
  if num % 2 = 0 ∧ k = num / 2 ∧ num < n then X k + X (n - num / 2)
  else if k ≤ num / 2 then X k
  else X (n - num + k)

/-- `scipy.signal.resample(x, num)` along one axis for `num ≤ n`
(`src/cbadc/digital_estimator/decimation_and_demodulation.py:19`); no samples raise `ValueError`.  The FFT of
real input takes an equivalent path through `rfft`, not modelled separately. -/
noncomputable def resample (n num : ℕ) (x : ℕ → ℂ) : Res (ℕ × (ℕ → ℂ)) :=
  if num = 0 then .error .valueError
  else .ok (num, fun j => ifft num (keep n num (fft n x)) j * (num / n))

/-- `decimate(signal, DSR, axis)` along the chosen axis, every line along that axis being treated alike,
`src/cbadc/digital_estimator/decimation_and_demodulation.py:6-19`; `n` is `signal.shape[axis]`. -/
noncomputable def decimate (n : ℕ) (x : ℕ → ℂ) (DSR : ℕ) : Res (ℕ × (ℕ → ℂ)) :=
  if DSR = 0 then .error .zeroDivision else resample n (n / DSR) x

end Cbadc.Decimation
