import Mathlib.Analysis.SpecialFunctions.Complex.Circle
import Mathlib.Analysis.SpecialFunctions.Trigonometric.Basic
import Verif.Model.Spectrum

/-!
# Power spectral density and rms values (`src/cbadc/utilities.py`)

`scipy.signal.welch` and `scipy.signal.windows.blackman` are modelled in exact arithmetic, as documented: segments that
overlap by half, the mean of each segment removed, a periodic Blackman window, a one-sided density, and the mean of the
segments.  Sequences are one-dimensional and not empty.
-/

namespace Cbadc.Spectrum

/-- `scipy.signal.windows.blackman`, with which `welch` (periodic, `src/cbadc/utilities.py:341-350`) and
`snr_spectrum_computation_extended` (symmetric, `src/cbadc/utilities.py:425`) weight; a window of one sample is 1. -/
noncomputable def blackman (n : ℕ) (sym : Bool) (j : ℕ) : ℝ :=
  if n ≤ 1 then 1
  else
    let p : ℝ := if sym then n - 1 else n
    0.42 - 0.5 * Real.cos (2 * Real.pi * j / p) + 0.08 * Real.cos (4 * Real.pi * j / p)

/-- The samples of a segment of `n` samples from `s` on without their mean (`detrend="constant"`, the default of `welch`,
`src/cbadc/utilities.py:341-350`). -/
noncomputable def detrend (x : ℕ → ℝ) (n s j : ℕ) : ℝ := x (s + j) - (∑ i ∈ Finset.range n, x (s + i)) / n

/-- Bin `k` of the Fourier transform of `n` samples (`numpy.fft.rfft` inside `welch`, `src/cbadc/utilities.py:341-350`). -/
noncomputable def rfft (n : ℕ) (y : ℕ → ℝ) (k : ℕ) : ℂ :=
  ∑ j ∈ Finset.range n, (y j : ℂ) * Complex.exp (-(2 * Real.pi * Complex.I / n)) ^ (k * j)

/-- One-sided densities: all bins count twice but the first and, for an even length, the last (`return_onesided=True`,
`src/cbadc/utilities.py:348`). -/
def oneSided (n k : ℕ) (r : ℝ) : ℝ :=
  if n % 2 = 1 then (if 1 ≤ k then 2 * r else r) else (if 1 ≤ k ∧ k < n / 2 then 2 * r else r)

/-- The length of the segments, `src/cbadc/utilities.py:340`. -/
def segmentLength (size nperseg : ℕ) : ℕ := min nperseg size

/-- The number of bins of the spectrum of `compute_power_spectral_density`, `src/cbadc/utilities.py:341-351`. -/
def bins (size nperseg : ℕ) : ℕ := segmentLength size nperseg / 2 + 1

/-- The frequencies that `compute_power_spectral_density` returns, `src/cbadc/utilities.py:341-351`. -/
noncomputable def freq (size nperseg : ℕ) (fs : ℝ) (k : ℕ) : ℝ := k * fs / segmentLength size nperseg

/-- The number of segments, which overlap by `n // 2` samples (`noverlap=None`, `src/cbadc/utilities.py:346`). -/
def segments (size n : ℕ) : ℕ := (size - n / 2) / (n - n / 2)

/-- The spectrum that `compute_power_spectral_density` returns, `src/cbadc/utilities.py:322-352`. -/
noncomputable def psd (x : ℕ → ℝ) (size nperseg : ℕ) (fs : ℝ) (k : ℕ) : ℝ :=
  let n := segmentLength size nperseg
  (∑ s ∈ Finset.range (segments size n),
    oneSided n k (‖rfft n (fun j => blackman n false j * detrend x n (s * (n - n / 2)) j) k‖ ^ 2 /
      (fs * ∑ j ∈ Finset.range n, blackman n false j ^ 2))) / segments size n

/-- `CG`, `src/cbadc/utilities.py:426`. -/
noncomputable def coherentGain (N : ℕ) : ℝ := (∑ j ∈ Finset.range N, blackman N true j) / N

/-- `NG`, `src/cbadc/utilities.py:427`. -/
noncomputable def noiseGain (N : ℕ) : ℝ := (∑ j ∈ Finset.range N, blackman N true j ^ 2) / N

/-- The rms values in the result of `snr_spectrum_computation_extended`, `src/cbadc/utilities.py:441-447`. -/
structure Rms where
  noise : ℝ
  signal : ℝ

/-- `noise_rms` and `signal_rms` of `snr_spectrum_computation_extended`, `src/cbadc/utilities.py:419-442`; the exception for
a bin of the harmonics outside the spectrum (line 435) is left to `snrExtended`. -/
noncomputable def rmsValues (size : ℕ) (f : ℕ → ℝ) (signal noise : List ℤ) (fs : ℝ) : Res Rms :=
  match power size f noise with
  | .error e => .error e
  | .ok n =>
    match power size f signal with
    | .error e => .error e
    | .ok s =>
      .ok ⟨Real.sqrt (n * (fs / size)), Real.sqrt (s * noiseGain size * (fs / size) / coherentGain size ^ 2)⟩

end Cbadc.Spectrum
