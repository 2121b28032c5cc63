import Mathlib.Analysis.SpecialFunctions.Trigonometric.Basic

/-!
# Specification: the power of a sequence
-/

namespace Cbadc.Spectrum.Spec

/-- The Blackman window of period `n` (documentation of `scipy.signal.windows.blackman`); 1 for a single sample. -/
noncomputable def window (n j : ℕ) : ℝ :=
  if n ≤ 1 then 1 else 42 / 100 - 1 / 2 * Real.cos (2 * Real.pi * (j / n)) + 8 / 100 * Real.cos (4 * Real.pi * (j / n))

/-- The mean of the `n` values of `x` from `s` on. -/
noncomputable def mean (x : ℕ → ℝ) (n s : ℕ) : ℝ := (∑ j ∈ Finset.range n, x (s + j)) / n

/-- The mean square deviation of the `n` values of `x` from `s` on from their mean, weighted with the squared window. -/
noncomputable def segmentPower (x : ℕ → ℝ) (n s : ℕ) : ℝ :=
  (∑ j ∈ Finset.range n, window n j ^ 2 * (x (s + j) - mean x n s) ^ 2) / ∑ j ∈ Finset.range n, window n j ^ 2

/-- The mean power of the `S` segments of `n` values that begin every `n - n/2` values. -/
noncomputable def averagePower (x : ℕ → ℝ) (n S : ℕ) : ℝ :=
  (∑ s ∈ Finset.range S, segmentPower x n (s * (n - n / 2))) / S

/-- The Fourier coefficients of the Blackman window: what a tone contributes at a distance of `d` bins. -/
noncomputable def lobe (d : ℤ) : ℝ :=
  if d = 0 then 21 / 50 else if d = 1 ∨ d = -1 then -1 / 4 else if d = 2 ∨ d = -2 then 1 / 25 else 0

/-- The mask of the bins that are not in another one. -/
def rest (N : ℕ) (l : List ℤ) : List ℤ := ((List.range N).map fun k : ℕ => (k : ℤ)).filter fun z => z ∉ l

end Cbadc.Spectrum.Spec
