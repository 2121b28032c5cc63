import Mathlib.Algebra.Order.Archimedean.Real.Basic
import Verif.Props.FIRFixed
import Verif.Props.SpectrumTriangle

/-!
# C185: what the word length of the filter coefficients does to a spectrum
-/

namespace Cbadc.Estimator

open Cbadc.Spectrum Cbadc.Streams Matrix

variable {N M L : ℕ}

/-- **C185** If the sums of the magnitudes of the taps do not exceed the largest number of the fixed-point format, the fixed-point
filter can be constructed, delivers an estimate whenever the floating-point filter does, and in the spectra of their estimates
the roots of the powers in the bins of any mask differ by at most two steps of the format per tap. -/
theorem C185_word_length (bits : ℕ) (mx : ℝ) (hmax : 0 < mx) (fp : FixedPoint ℝ) (hfp : FixedPoint.new bits mx = .ok fp)
    (step : ℝ) (hstep : fp.fixedToFloat 1 = .ok step) (c : Coeffs ℝ N M L) (K1 K2 : ℕ) (eta2 : ℝ) (mid : Bool)
    (ds limit : ℕ) (g : FIR ℝ M L) (hg : FIR.new c K1 K2 eta2 mid ds limit none = .ok g)
    (hsum : ∀ l, ∑ k ∈ Finset.range (K1 + K2), ∑ m, |g.h k l m| ≤ mx)
    (src : ℕ → Res (Fin M → ℝ)) (s : ℕ → Fin M → ℝ) (h01 : ∀ j m, s j m = 0 ∨ s j m = 1) (size nperseg : ℕ)
    (hds : ds ≤ K1 + K2) (hlim : limit = 0 ∨ ds * size ≤ limit) (hs : ∀ j < ds * size, src j = .ok (s j))
    (h0 : 0 < size) (hn : 0 < nperseg) (fs : ℝ) (hf : 0 < fs) :
    ∃ (f : FixedFIR ℝ M L) (x y : ℕ → Fin L → ℝ), FixedFIR.new fp c K1 K2 eta2 mid ds limit none = .ok f ∧
      (∀ n < size, call (f.next src) FIRState.init n = .ok (x n) ∧ call (g.next src) FIRState.init n = .ok (y n)) ∧
      ∀ (l : Fin L) (mask : List ℤ), mask.Nodup → (∀ z ∈ mask, 0 ≤ z ∧ z < bins size nperseg) →
        ∃ p q, power (bins size nperseg) (psd (fun n => x n l) size nperseg fs) mask = .ok p ∧
          power (bins size nperseg) (psd (fun n => y n l) size nperseg fs) mask = .ok q ∧
          |Real.sqrt (p * (freq size nperseg fs 1 - freq size nperseg fs 0)) -
            Real.sqrt (q * (freq size nperseg fs 1 - freq size nperseg fs 0))| ≤ 2 * (((K1 + K2 : ℕ) * M : ℝ) * step) := by
  have hmono : ∀ n < size, ds * (n + 1) ≤ ds * size := fun n h => Nat.mul_le_mul_left _ h
  have hlim' : ∀ n < size, limit = 0 ∨ ds * (n + 1) ≤ limit := fun n h => hlim.imp_right (le_trans (hmono n h))
  have hs' : ∀ n < size, ∀ j < ds * (n + 1), src j = .ok (s j) := fun n h j hj => hs j (hj.trans_le (hmono n h))
  have hno := fun n h => C121_no_overflow bits mx hmax fp hfp c K1 K2 eta2 mid ds limit g hg hsum src s h01 n hds (hlim' n h)
    (hs' n h)
  obtain ⟨f, hfnew, -⟩ := hno 0 h0
  have key : ∀ n < size, ∃ x y, call (f.next src) FIRState.init n = .ok x ∧ call (g.next src) FIRState.init n = .ok y ∧
      ∀ l, |x l - y l| ≤ ((K1 + K2 : ℕ) * M : ℝ) * step := by
    intro n h
    obtain ⟨f', hf', y, hy⟩ := hno n h
    rw [hfnew] at hf'
    obtain rfl := Except.ok.inj hf'
    obtain ⟨z, hz, ⟨y', hy', hb⟩ | ⟨he, -⟩⟩ := C121_estimate_partial bits mx hmax fp hfp step hstep c K1 K2 eta2 mid ds limit
      f g hfnew hg src s h01 n hds (hlim' n h) (hs' n h)
    · exact ⟨y', z, hy', hz, hb⟩
    · rw [hy] at he
      cases he
  choose x y hx hy hxy using key
  refine ⟨f, fun n => if h : n < size then x n h else 0, fun n => if h : n < size then y n h else 0, hfnew, ?_, ?_⟩
  · intro n h
    simp only [dif_pos h]
    exact ⟨hx n h, hy n h⟩
  · intro l mask hmask hin
    refine C184_close _ _ size nperseg fs _ h0 hn hf ?_ mask hmask hin
    intro n h
    simp only [dif_pos h]
    exact hxy n h l

/-- the coefficients of the example of C121, as real numbers -/
noncomputable def realCoeffs : Coeffs ℝ 1 1 1 := ⟨!![1 / 2], !![1 / 3], !![1], !![2], !![1]⟩

/-- 8 bits, three taps 2, 2/3 and 2/9, a control signal 1, 0, 1, 0, ..., a thousand estimates -/
example := C185_word_length 8 4 (by norm_num) ⟨8, 4, 128, 32⟩ (by simp [FixedPoint.new]; norm_num) (1 / 32)
  (by simp [FixedPoint.fixedToFloat]) realCoeffs 0 3 1 false 1 0 ⟨0, 3, 1, 0, firTaps realCoeffs 0 3, 0⟩ (by simp [FIR.new])
  (by
    have h : firTaps realCoeffs 0 3 0 = !![2] ∧ firTaps realCoeffs 0 3 1 = !![2 / 3] ∧ firTaps realCoeffs 0 3 2 = !![2 / 9] := by
      refine ⟨?_, ?_, ?_⟩ <;> rw [firTaps_eq _ _ _ _ (by norm_num)] <;> ext i j <;>
        simp [realCoeffs, pow_succ, Matrix.mul_apply] <;> norm_num
    intro l
    obtain ⟨h0, h1, h2⟩ := h
    fin_cases l
    simp [Finset.sum_range_succ, h0, h1, h2, abs_of_pos]
    norm_num)
  (fun n => .ok fun _ => if n % 2 = 0 then 1 else 0) (fun n _ => if n % 2 = 0 then 1 else 0)
  (fun j m => by by_cases h : j % 2 = 0 <;> simp [h]) 1000 256 (by norm_num) (Or.inl rfl) (fun j _ => rfl) (by norm_num)
  (by norm_num) 2 (by norm_num)

end Cbadc.Estimator
