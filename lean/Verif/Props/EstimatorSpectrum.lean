import Verif.Props.SpectrumTriangle
import Verif.Props.Truncation

/-!
# C186: the spectrum of the estimates does not depend on the estimator and, nearly, not on the length of its filters
-/

namespace Cbadc.Estimator

open Cbadc.Spectrum Cbadc.Streams Matrix

variable {N M L : ℕ}

/-- In the spectra of the first values of two sequences the roots of the powers in the bins of any mask differ by at most `B`:
for all lengths of sequence and segments and all sampling frequencies of `compute_power_spectral_density`
(`src/cbadc/utilities.py:322-352`), and all masks of indices without repetitions in `np.sum(spectrum[mask])`
(`src/cbadc/utilities.py:374-375`). -/
def SpectraWithin (x y : ℕ → ℝ) (B : ℝ) (sizes : ℕ → Prop) : Prop :=
  ∀ (size nperseg : ℕ) (fs : ℝ) (mask : List ℤ), sizes size → 0 < size → 0 < nperseg → 0 < fs → mask.Nodup →
    (∀ z ∈ mask, 0 ≤ z ∧ z < bins size nperseg) →
    ∃ p q, power (bins size nperseg) (psd x size nperseg fs) mask = .ok p ∧
      power (bins size nperseg) (psd y size nperseg fs) mask = .ok q ∧
      |Real.sqrt (p * (freq size nperseg fs 1 - freq size nperseg fs 0)) -
        Real.sqrt (q * (freq size nperseg fs 1 - freq size nperseg fs 0))| ≤ B

theorem spectraWithin_of_close {x y : ℕ → ℝ} {δ : ℝ} {sizes : ℕ → Prop}
    (h : ∀ size, sizes size → ∀ j < size, |x j - y j| ≤ δ) : SpectraWithin x y (2 * δ) sizes :=
  fun size nperseg fs mask hsz h0 hn hf hm hin => C184_close x y size nperseg fs δ h0 hn hf (h size hsz) mask hm hin

/-- **C186** If the powers of the filter matrices vanish, there is for every stream of control vectors a sequence of ideal
estimates such that in every part of the spectrum the estimates of the FIR, the IIR and the batch estimator differ from it by an
amount that falls geometrically with the lengths of the filters; the constants depend neither on the stream nor on the number of
estimates that are evaluated. -/
theorem C186_spectra (c : Coeffs ℝ N M L) (hf : Filter.Tendsto (fun k : ℕ => c.Af ^ k) Filter.atTop (nhds 0))
    (hb : Filter.Tendsto (fun k : ℕ => c.Ab ^ k) Filter.atTop (nhds 0)) :
    ∃ C r : ℝ, 0 ≤ C ∧ 0 ≤ r ∧ r < 1 ∧ ∀ s : ℕ → Fin M → ℝ, (∀ j m, 0 ≤ s j m ∧ s j m ≤ 1) → ∃ u : ℤ → Fin L → ℝ,
      (∀ (K1 K2 : ℕ) (eta2 : ℝ) f, FIR.new c K1 K2 eta2 false 1 0 none = .ok f → ∃ x : ℕ → Fin L → ℝ,
        (∀ n, call (f.next fun j => .ok (s j)) FIRState.init n = .ok (x n)) ∧
        ∀ l, SpectraWithin (fun n => x n l) (fun n => u (n + 1 - K2) l) (C * (r ^ K1 + r ^ K2)) fun _ => True) ∧
      (∀ (K2 : ℕ) (eta2 : ℝ) f, IIR.new c K2 eta2 1 0 = .ok f → 1 ≤ K2 → ∃ x : ℕ → Fin L → ℝ,
        (∀ n, call (f.next fun j => .ok (s j)) IIRState.init n = .ok (x n)) ∧
        ∀ l, SpectraWithin (fun n => x n l) (fun n => u (n + 1 - K2) l) (C * r ^ K2) fun _ => True) ∧
      (∀ (K1 K2 : ℕ) (eta2 : ℝ) (ds : ℤ) (limit : ℕ) f, Batch.new c K1 K2 eta2 ds limit = .ok f → ∃ x : ℕ → Fin L → ℝ,
        (∀ n, n + n / K1 + 1 ≤ limit → call (f.next fun j => .ok (s j)) f.init n = .ok (x n)) ∧
        ∀ l, SpectraWithin (fun n => x n l) (fun n => u n l) (C * r ^ K2) fun size => size + size / K1 ≤ limit) := by
  obtain ⟨C, r, hC, hr0, hr1, h⟩ := Truncation.C145_estimators c hf hb
  refine ⟨2 * C, r, by positivity, hr0, hr1, fun s hs => ?_⟩
  obtain ⟨u, h1, h2, h3⟩ := h s hs
  refine ⟨u, ?_, ?_, ?_⟩
  · intro K1 K2 eta2 f hnew
    choose x hx hxu using h1 K1 K2 eta2 f hnew
    refine ⟨x, hx, fun l => ?_⟩
    rw [mul_assoc]
    exact spectraWithin_of_close fun size _ j _ => hxu j l
  · intro K2 eta2 f hnew hK2
    choose x hx hxu using h2 K2 eta2 f hnew hK2
    refine ⟨x, hx, fun l => ?_⟩
    rw [mul_assoc]
    exact spectraWithin_of_close fun size _ j _ => hxu j l
  · intro K1 K2 eta2 ds limit f hnew
    have key := h3 K1 K2 eta2 ds limit f hnew
    choose x hx hxu using key
    refine ⟨fun n => if hn : n + n / K1 + 1 ≤ limit then x n hn else 0, fun n hn => ?_, fun l => ?_⟩
    · rw [hx n hn]
      simp only [dif_pos hn]
    · rw [mul_assoc]
      refine spectraWithin_of_close fun size hsz j hj => ?_
      have hj' : j + j / K1 + 1 ≤ limit := by
        have : j / K1 ≤ size / K1 := Nat.div_le_div_right hj.le
        omega
      simp only [dif_pos hj']
      exact hxu j hj' l

/-- the filters of the simulated integrator (C143) -/
example := C186_spectra EndToEnd.exCoeffs Truncation.ex_vanish.1 Truncation.ex_vanish.2

end Cbadc.Estimator
