import Mathlib.Algebra.BigOperators.Field
import Mathlib.Algebra.Order.BigOperators.Group.Finset
import Verif.Lemmas.Tone

/-!
# Lemmas: the transform of a disturbed tone
-/

namespace Cbadc.Spectrum

open Finset Complex

/-- The sum of the window. -/
theorem window_sum {n : ℕ} (hn : 3 ≤ n) : ∑ j ∈ range n, Spec.window n j = 21 / 50 * n := by
  have hd : ∀ d : ℤ, d ≠ 0 → |d| < 3 → ∑ j ∈ range n, tw n d j = 0 := by
    intro d h0 h3
    rw [tw_sum (by omega), if_neg]
    intro h
    have h' := Int.le_of_dvd (abs_pos.2 h0) ((dvd_abs _ _).2 h)
    omega
  have h : ((∑ j ∈ range n, Spec.window n j : ℝ) : ℂ) = ((21 / 50 * n : ℝ) : ℂ) := by
    have key : ∀ j ∈ range n, ((Spec.window n j : ℝ) : ℂ) = 21 / 50 - 1 / 4 * (tw n 1 j + tw n (-1) j) +
        1 / 25 * (tw n 2 j + tw n (-2) j) := by
      intro j _
      rw [window_tw (by omega), show (2 : ℤ) = 1 + 1 by norm_num, tw_add, show (-(1 + 1) : ℤ) = -1 + -1 by norm_num, tw_add]
      ring
    rw [ofReal_sum, sum_congr rfl key, sum_add_distrib, sum_sub_distrib, ← mul_sum, ← mul_sum, sum_add_distrib, sum_add_distrib,
      hd 1 (by norm_num) (by norm_num), hd (-1) (by norm_num) (by norm_num), hd 2 (by norm_num) (by norm_num),
      hd (-2) (by norm_num) (by norm_num), sum_const, card_range, nsmul_eq_mul]
    push_cast
    ring
  exact_mod_cast h

/-- Every bin is at most the sum of the magnitudes. -/
theorem rfft_le (n : ℕ) (y : ℕ → ℝ) (k : ℕ) : ‖rfft n y k‖ ≤ ∑ j ∈ range n, |y j| := by
  unfold rfft
  refine (norm_sum_le _ _).trans (le_of_eq (sum_congr rfl fun j _ => ?_))
  rw [norm_mul, norm_pow, root_norm, one_pow, mul_one, norm_real, Real.norm_eq_abs]

/-- Samples without their mean are at most twice as large. -/
theorem detrend_le {n : ℕ} (hn : 0 < n) {e : ℕ → ℝ} {δ : ℝ} {t : ℕ} (h : ∀ j < n, |e (t + j)| ≤ δ) {j : ℕ} (hj : j < n) :
    |detrend e n t j| ≤ 2 * δ := by
  have hn0 : (0 : ℝ) < n := by exact_mod_cast hn
  have hm : |(∑ i ∈ range n, e (t + i)) / n| ≤ δ := by
    rw [abs_div, abs_of_pos hn0, div_le_iff₀ hn0]
    refine (abs_sum_le_sum_abs _ _).trans ((sum_le_sum fun i hi => h i (mem_range.1 hi)).trans (le_of_eq ?_))
    rw [sum_const, card_range, nsmul_eq_mul, mul_comm]
  unfold detrend
  have := abs_sub (e (t + j)) ((∑ i ∈ range n, e (t + i)) / n)
  have := h j hj
  linarith

/-- What a disturbance contributes to a bin. -/
theorem rfft_disturbance {n : ℕ} (hn : 3 ≤ n) {e : ℕ → ℝ} {δ : ℝ} {t : ℕ} (h : ∀ j < n, |e (t + j)| ≤ δ) (k : ℕ) :
    ‖rfft n (fun j => blackman n false j * detrend e n t j) k‖ ≤ 21 / 25 * δ * n := by
  refine (rfft_le _ _ _).trans ?_
  have : ∀ j ∈ range n, |blackman n false j * detrend e n t j| ≤ Spec.window n j * (2 * δ) := by
    intro j hj
    rw [abs_mul, abs_of_nonneg (blackman_nonneg _ _ _), ← window_eq]
    exact mul_le_mul_of_nonneg_left (detrend_le (by omega) h (mem_range.1 hj)) (blackman_nonneg _ _ _)
  refine (sum_le_sum this).trans (le_of_eq ?_)
  rw [← sum_mul, window_sum hn]
  ring

/-- The bins of a tone with a disturbance are those of the tone plus those of the disturbance. -/
theorem rfft_disturbed {n m k : ℕ} (hm : 3 ≤ m) (hn : 2 * (m + 2) < n) (hk : k ≤ n / 2) (A φ : ℝ) (e : ℕ → ℝ) (t : ℕ) :
    ∃ ψ : ℝ, rfft n (fun j => blackman n false j *
        detrend (fun j => A * Real.cos (2 * Real.pi * m * j / n + φ) + e j) n t j) k =
      A * n / 2 * exp (ψ * I) * Spec.lobe (k - m) + rfft n (fun j => blackman n false j * detrend e n t j) k := by
  refine ⟨2 * Real.pi * m * t / n + φ, ?_⟩
  have hshift : ∀ j : ℕ, 2 * Real.pi * m * ((t + j : ℕ) : ℝ) / n + φ = 2 * Real.pi * m * j / n + (2 * Real.pi * m * t / n + φ) := by
    intro j
    push_cast
    ring
  rw [← rfft_tone hm hn hk]
  unfold rfft
  rw [← sum_add_distrib]
  refine sum_congr rfl fun j _ => ?_
  rw [← add_mul]
  congr 1
  unfold detrend
  dsimp only
  simp only [hshift]
  rw [sum_add_distrib, ← mul_sum, tone_mean (by omega) (by omega), window_eq]
  push_cast
  ring

theorem lobe_le {d : ℤ} (hd : d ≠ 0) : |Spec.lobe d| ≤ 1 / 4 := by
  unfold Spec.lobe
  rw [if_neg hd]
  split_ifs <;> norm_num [abs_le]

theorem norm_tone (A ψ : ℝ) (n : ℕ) (d : ℤ) : ‖(A : ℂ) * n / 2 * exp (ψ * I) * Spec.lobe d‖ = |A| * n / 2 * |Spec.lobe d| := by
  rw [norm_mul, norm_mul, norm_exp_ofReal_mul_I, norm_div, norm_mul, norm_real, norm_real, norm_natCast, norm_ofNat, mul_one,
    Real.norm_eq_abs, Real.norm_eq_abs]

/-- The magnitude of bin `k` of segment `s` inside `welch` (`src/cbadc/utilities.py:341-350`), as it occurs in `psd`. -/
noncomputable def segBin (x : ℕ → ℝ) (n s k : ℕ) : ℝ :=
  ‖rfft n (fun j => blackman n false j * detrend x n (s * (n - n / 2)) j) k‖

theorem psd_eq (x : ℕ → ℝ) (size nperseg : ℕ) (fs : ℝ) (k : ℕ) {n : ℕ} (hl : segmentLength size nperseg = n) (hn : 5 ≤ n) :
    psd x size nperseg fs k = (∑ s ∈ range (segments size n), oneSided n k (segBin x n s k ^ 2 / (fs * (1523 / 5000 * n)))) /
      segments size n := by
  have hW : ∑ j ∈ range n, blackman n false j ^ 2 = 1523 / 5000 * n := by
    rw [← window_sq hn]
    exact sum_congr rfl fun j _ => by rw [window_eq]
  unfold psd
  rw [hl]
  dsimp only
  rw [hW]
  rfl

/-- A density whose bins are bounded in every segment. -/
theorem psd_upper (x : ℕ → ℝ) (size nperseg : ℕ) (fs : ℝ) (hf : 0 < fs) (k : ℕ) {n : ℕ} (hl : segmentLength size nperseg = n)
    (hn : 5 ≤ n) (hS : 0 < segments size n) {U : ℝ} (hU : ∀ s < segments size n, segBin x n s k ≤ U) :
    psd x size nperseg fs k ≤ 2 * (U ^ 2 / (fs * (1523 / 5000 * n))) := by
  have hn0 : (0 : ℝ) < n := by exact_mod_cast (by omega : 0 < n)
  have hS' : (0 : ℝ) < segments size n := by exact_mod_cast hS
  rw [psd_eq x size nperseg fs k hl hn, div_le_iff₀ hS']
  have : ∀ s ∈ range (segments size n), oneSided n k (segBin x n s k ^ 2 / (fs * (1523 / 5000 * n))) ≤
      2 * (U ^ 2 / (fs * (1523 / 5000 * n))) := by
    intro s hs
    have h0 : 0 ≤ segBin x n s k := norm_nonneg _
    have h1 : segBin x n s k ^ 2 / (fs * (1523 / 5000 * n)) ≤ U ^ 2 / (fs * (1523 / 5000 * n)) :=
      div_le_div_of_nonneg_right (pow_le_pow_left₀ h0 (hU s (mem_range.1 hs)) 2) (by positivity)
    have h2 : 0 ≤ segBin x n s k ^ 2 / (fs * (1523 / 5000 * n)) := by positivity
    unfold oneSided
    split_ifs <;> linarith
  refine (sum_le_sum this).trans (le_of_eq ?_)
  rw [sum_const, card_range, nsmul_eq_mul, mul_comm]

theorem psd_lower (x : ℕ → ℝ) (size nperseg : ℕ) (fs : ℝ) (hf : 0 < fs) (k : ℕ) {n : ℕ} (hl : segmentLength size nperseg = n)
    (hn : 5 ≤ n) (hS : 0 < segments size n) {L : ℝ} (hL0 : 0 ≤ L) (hL : ∀ s < segments size n, L ≤ segBin x n s k)
    (hk1 : 1 ≤ k) (hk2 : k < n / 2) :
    2 * (L ^ 2 / (fs * (1523 / 5000 * n))) ≤ psd x size nperseg fs k := by
  have hn0 : (0 : ℝ) < n := by exact_mod_cast (by omega : 0 < n)
  have hS' : (0 : ℝ) < segments size n := by exact_mod_cast hS
  rw [psd_eq x size nperseg fs k hl hn, le_div_iff₀ hS']
  have : ∀ s ∈ range (segments size n), 2 * (L ^ 2 / (fs * (1523 / 5000 * n))) ≤
      oneSided n k (segBin x n s k ^ 2 / (fs * (1523 / 5000 * n))) := by
    intro s hs
    have h1 : L ^ 2 / (fs * (1523 / 5000 * n)) ≤ segBin x n s k ^ 2 / (fs * (1523 / 5000 * n)) :=
      div_le_div_of_nonneg_right (pow_le_pow_left₀ hL0 (hL s (mem_range.1 hs)) 2) (by positivity)
    unfold oneSided
    split_ifs <;> first | linarith | omega
  refine (le_of_eq ?_).trans (sum_le_sum this)
  rw [sum_const, card_range, nsmul_eq_mul, mul_comm]

/-- All samples of all segments are samples of the sequence. -/
theorem segment_index {size n s j : ℕ} (hn : 0 < n) (hs : s < segments size n) (hj : j < n) :
    s * (n - n / 2) + j < size := by
  have hd0 : 0 < n - n / 2 := by omega
  have h1 : (s + 1) * (n - n / 2) ≤ segments size n * (n - n / 2) := Nat.mul_le_mul_right _ hs
  have h2 : segments size n * (n - n / 2) ≤ size - n / 2 := Nat.div_mul_le_self _ _
  rw [Nat.succ_mul] at h1
  omega

end Cbadc.Spectrum
