import Mathlib.Analysis.SpecialFunctions.Trigonometric.Basic
import Verif.Model.Adaptive

/-!
# Reports of adaptive filters (`src/cbadc/digital_estimator/adaptive_filter.py:429-473,547-573,640-706`)

Real coefficients (`dtype=np.float64`): `np.fft.rfft` is for real arrays.
-/

namespace Cbadc.Adaptive
open Finset

/-- `AdaptiveFIRFilter.impulse_response`, `src/cbadc/digital_estimator/adaptive_filter.py:451-467`, with `get_filter`
of lines 430-439. -/
def Filter.impulseResponse (f : Filter ℝ) (points : ℕ) : Res (ℕ → ℕ → ℕ → ℝ) :=
  if points ≠ 0 then .error .valueError else .ok f.h

/-- Entry `i` of `np.fft.rfft(h)` for `K` real numbers, `src/cbadc/digital_estimator/adaptive_filter.py:572`. -/
noncomputable def rfft (K : ℕ) (h : ℕ → ℝ) (i : ℕ) : ℂ :=
  ∑ k ∈ range K, (h k : ℂ) * Complex.exp (-2 * Real.pi * Complex.I * (i * k / K))

/-- What `transfer_function` returns, `src/cbadc/digital_estimator/adaptive_filter.py:573`: frequencies in cycles per
sample and the entries `tf[l, m, :]`. -/
structure Report where
  freqs : List ℝ
  tf : ℕ → ℕ → List ℂ

/-- `AdaptiveFIRFilter.transfer_function`, `src/cbadc/digital_estimator/adaptive_filter.py:547-573`.  `rfftfreq(0)`
divides by zero, `rfft` rejects an empty array, and the `K // 2 + 1` values of `rfft` are stored in
`number_of_points // 2 + 1` places by numpy's broadcasting (line 572).  Simplified: the number of points is not
negative. -/
noncomputable def Filter.transferFunction (f : Filter ℝ) (points : ℕ) : Res Report :=
  let n := if points = 0 then f.K else points
  if n = 0 then .error .zeroDivision
  else
    let freqs := (List.range (n / 2 + 1)).map fun (i : ℕ) => (i : ℝ) / n
    if f.L = 0 ∨ f.M = 0 then .ok ⟨freqs, fun _ _ => []⟩
    else if f.K = 0 then .error .valueError
    else if f.K / 2 + 1 = n / 2 + 1 then
      .ok ⟨freqs, fun l m => (List.range (n / 2 + 1)).map fun i => rfft f.K (f.h l m) i⟩
    else if f.K / 2 + 1 = 1 then
      .ok ⟨freqs, fun l m => (List.range (n / 2 + 1)).map fun _ => rfft f.K (f.h l m) 0⟩
    else .error .valueError

/-- A polynomial with the coefficients `c`, highest power first, at `z`: the convention of `scipy.signal.dlti`
(`src/cbadc/digital_estimator/adaptive_filter.py:647-648`). -/
noncomputable def polyval (K : ℕ) (c : ℕ → ℝ) (z : ℂ) : ℂ := ∑ k ∈ range K, (c k : ℂ) * z ^ (K - 1 - k)

/-- `AdaptiveIIRFilter.transfer_function`, `src/cbadc/digital_estimator/adaptive_filter.py:682-706`, with `_dlti` of
lines 640-648: entry `l, m`, where channel `M` of the coefficients is the feedback.  `freqresp(n)` evaluates the
quotient at `n` angles `pi i / n` (radians per sample).  Simplified: the denominator has no zero at these angles
(scipy warns and returns infinities or nans otherwise) and there is at least one tap; `f.M` is the number of channels
of the coefficient array, one more than the attribute `M`. -/
noncomputable def Filter.iirTransferFunction (f : Filter ℝ) (points : ℕ) : Report :=
  let n := if points = 0 then f.K else points
  ⟨(List.range n).map fun (i : ℕ) => Real.pi * i / n, fun l m => (List.range n).map fun (i : ℕ) =>
    polyval f.K (f.h l m) (Complex.exp (Complex.I * (Real.pi * i / n))) /
      polyval f.K (f.h l (f.M - 1)) (Complex.exp (Complex.I * (Real.pi * i / n)))⟩

end Cbadc.Adaptive
