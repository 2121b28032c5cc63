import Mathlib.Algebra.BigOperators.Field
import Verif.Lemmas.Tone
import Verif.Props.Spectrum

/-!
# C180: the spectrum and the signal-to-noise ratio of a tone
-/

namespace Cbadc.Spectrum

open Finset

variable {m size nperseg : ℕ}

/-- **C180** The spectrum of a tone with a whole number `m` of periods in a segment is that of the window around bin `m`,
whatever the phase and the number of segments. -/
theorem C180_tone (A φ fs : ℝ) (hm : 3 ≤ m) (hn : 2 * (m + 2) < min nperseg size) (k : ℕ) (hk : k < bins size nperseg) :
    psd (fun j => A * Real.cos (2 * Real.pi * m * j / (min nperseg size : ℕ) + φ)) size nperseg fs k =
      A ^ 2 * (min nperseg size : ℕ) / (2 * fs) * (Spec.lobe (k - m) ^ 2 / (1523 / 5000)) := by
  have hk' : k ≤ min nperseg size / 2 := Nat.lt_succ_iff.1 hk
  have hsize : min nperseg size ≤ size := min_le_right _ _
  unfold psd
  have hl : segmentLength size nperseg = min nperseg size := rfl
  rw [hl]
  obtain ⟨n, e⟩ : ∃ n, n = min nperseg size := ⟨_, rfl⟩
  rw [← e] at hn hk' hsize ⊢
  dsimp only
  have hn0 : (n : ℝ) ≠ 0 := by
    have : n ≠ 0 := by omega
    exact_mod_cast this
  have hS : (segments size n : ℝ) ≠ 0 := by
    have : 0 < segments size n := Nat.div_pos (by omega) (by omega)
    exact_mod_cast this.ne'
  have hW : ∑ j ∈ range n, blackman n false j ^ 2 = 1523 / 5000 * n := by
    rw [← window_sq (by omega : 5 ≤ n)]
    exact sum_congr rfl fun j _ => by rw [window_eq]
  have hseg : ∀ s ∈ range (segments size n), oneSided n k (‖rfft n (fun j => blackman n false j *
      detrend (fun j => A * Real.cos (2 * Real.pi * m * j / n + φ)) n (s * (n - n / 2)) j) k‖ ^ 2 /
      (fs * ∑ j ∈ range n, blackman n false j ^ 2)) = A ^ 2 * n / (2 * fs) * (Spec.lobe (k - m) ^ 2 / (1523 / 5000)) := by
    intro s _
    obtain ⟨t, ht⟩ : ∃ t, t = s * (n - n / 2) := ⟨_, rfl⟩
    rw [← ht]
    have hshift : ∀ j : ℕ, 2 * Real.pi * m * ((t + j : ℕ) : ℝ) / n + φ = 2 * Real.pi * m * j / n + (2 * Real.pi * m * t / n + φ) := by
      intro j
      push_cast
      ring
    have hy : (fun j => blackman n false j * detrend (fun j => A * Real.cos (2 * Real.pi * m * j / n + φ)) n t j) =
        fun j => Spec.window n j * (A * Real.cos (2 * Real.pi * m * j / n + (2 * Real.pi * m * t / n + φ))) := by
      funext j
      unfold detrend
      simp only [hshift]
      rw [← mul_sum, tone_mean (by omega) (by omega), mul_zero, zero_div, sub_zero, window_eq]
    rw [hy, rfft_tone hm hn hk', hW]
    have hnorm : ‖(A : ℂ) * n / 2 * Complex.exp (((2 * Real.pi * m * t / n + φ : ℝ) : ℂ) * Complex.I) * Spec.lobe (k - m)‖ ^ 2 =
        A ^ 2 * n ^ 2 / 4 * Spec.lobe (k - m) ^ 2 := by
      rw [norm_mul, norm_mul, Complex.norm_exp_ofReal_mul_I, norm_div, norm_mul, Complex.norm_real, Complex.norm_real,
        Complex.norm_natCast, Complex.norm_ofNat, mul_one, mul_pow, div_pow, mul_pow, Real.norm_eq_abs, Real.norm_eq_abs, sq_abs,
        sq_abs]
      norm_num
    rw [hnorm]
    by_cases h0 : Spec.lobe ((k : ℤ) - m) = 0
    · rw [h0]
      unfold oneSided
      split_ifs <;> simp
    · have hkm : (m : ℤ) - 2 ≤ k ∧ (k : ℤ) ≤ m + 2 := by
        by_contra hc
        apply h0
        unfold Spec.lobe
        rw [if_neg (by omega), if_neg (by omega), if_neg (by omega)]
      have h2 : ∀ r, oneSided n k r = 2 * r := by
        intro r
        unfold oneSided
        by_cases hp : n % 2 = 1
        · rw [if_pos hp, if_pos (by omega)]
        · rw [if_neg hp, if_pos (by omega)]
      rw [h2]
      field_simp
      ring
  rw [sum_congr rfl hseg, sum_const, card_range, nsmul_eq_mul]
  exact mul_div_cancel_left₀ _ hS

/-- five periods of a sine in segments of 64 values, 1000 values -/
example := C180_tone (m := 5) (size := 1000) (nperseg := 64) 3 (Real.pi / 2) 2 (by norm_num) (by norm_num) 6 (by decide)

/-- **C180** `find_sinusoidal` finds the bin of the tone. -/
theorem C180_found (A φ fs : ℝ) (hA : A ≠ 0) (hf : 0 < fs) (hm : 3 ≤ m) (hn : 2 * (m + 2) < min nperseg size) (width : ℤ)
    (hw : 1 ≤ width) :
    ∃ l : List ℤ, findOne (bins size nperseg)
        (psd (fun j => A * Real.cos (2 * Real.pi * m * j / (min nperseg size : ℕ) + φ)) size nperseg fs) width = .ok l ∧
      l.Pairwise (· < ·) ∧
      ∀ z, z ∈ l ↔ (0 ≤ z ∧ z < bins size nperseg) ∧ (m : ℤ) - width / 2 ≤ z ∧ z < m + width / 2 := by
  have hmb : m < bins size nperseg := by
    have : bins size nperseg = min nperseg size / 2 + 1 := rfl
    omega
  obtain ⟨l, p, h1, h2, hp, h3, -, h5⟩ := C45_single (bins size nperseg) (by omega)
    (psd (fun j => A * Real.cos (2 * Real.pi * m * j / (min nperseg size : ℕ) + φ)) size nperseg fs) width hw
  have hn0 : (0 : ℝ) < (min nperseg size : ℕ) := by
    have : 0 < min nperseg size := by omega
    exact_mod_cast this
  have hc : 0 < A ^ 2 * (min nperseg size : ℕ) / (2 * fs) := by positivity
  have hpm : p = m := by
    by_contra hne
    have h := h3 m hmb
    rw [C180_tone A φ fs hm hn m hmb, C180_tone A φ fs hm hn p hp, sub_self, abs_of_nonneg (by positivity),
      abs_of_nonneg (by positivity)] at h
    have h' := le_of_mul_le_mul_left h hc
    rw [div_le_div_iff_of_pos_right (by norm_num)] at h'
    unfold Spec.lobe at h'
    rw [if_pos rfl, if_neg (by omega)] at h'
    split_ifs at h' <;> norm_num at h'
  subst hpm
  exact ⟨l, h1, h2, h5⟩

example := C180_found (m := 5) (size := 1000) (nperseg := 64) 3 0 2 (by norm_num) (by norm_num) (by norm_num) (by norm_num) 15
  (by norm_num)

/-- What the mask of `find_sinusoidal` and the rest of the bins contain. -/
theorem tone_powers (A φ fs : ℝ) (hA : A ≠ 0) (hf : 0 < fs) (hm : 3 ≤ m) (hn : 2 * (m + 2) < min nperseg size) (width : ℤ)
    (hw : 4 ≤ width) :
    ∃ l : List ℤ, findOne (bins size nperseg)
        (psd (fun j => A * Real.cos (2 * Real.pi * m * j / (min nperseg size : ℕ) + φ)) size nperseg fs) width = .ok l ∧
      power (bins size nperseg) (psd (fun j => A * Real.cos (2 * Real.pi * m * j / (min nperseg size : ℕ) + φ)) size nperseg fs) l =
        .ok (A ^ 2 * (min nperseg size : ℕ) / (2 * fs) * ((if width / 2 = 2 then 303 / 1000 else 1523 / 5000) / (1523 / 5000))) ∧
      power (bins size nperseg) (psd (fun j => A * Real.cos (2 * Real.pi * m * j / (min nperseg size : ℕ) + φ)) size nperseg fs)
        (Spec.rest (bins size nperseg) l) =
        .ok (A ^ 2 * (min nperseg size : ℕ) / (2 * fs) *
          ((1523 / 5000 - (if width / 2 = 2 then 303 / 1000 else 1523 / 5000)) / (1523 / 5000))) := by
  obtain ⟨l, h1, h2, h3⟩ := C180_found A φ fs hA hf hm hn width (by omega)
  have hb : bins size nperseg = min nperseg size / 2 + 1 := rfl
  obtain ⟨t, s⟩ := lobe_sum hm (by omega : m + 2 < bins size nperseg)
  have hx := fun k hk => C180_tone A φ fs hm hn k hk
  obtain ⟨f, hfe⟩ : ∃ f, f = psd (fun j => A * Real.cos (2 * Real.pi * m * j / (min nperseg size : ℕ) + φ)) size nperseg fs :=
    ⟨_, rfl⟩
  rw [← hfe] at h1 hx ⊢
  have hsub : ∀ S ⊆ range (bins size nperseg), ∑ k ∈ S, f k = A ^ 2 * (min nperseg size : ℕ) / (2 * fs) *
      ((∑ k ∈ S, Spec.lobe (k - m) ^ 2) / (1523 / 5000)) := by
    intro S hS
    rw [sum_div, mul_sum]
    exact sum_congr rfl fun k hk => hx k (mem_range.1 (hS hk))
  have hl : (range (bins size nperseg)).filter (fun k : ℕ => (k : ℤ) ∈ l) =
      (range (bins size nperseg)).filter (fun k : ℕ => (m : ℤ) - width / 2 ≤ k ∧ (k : ℤ) < m + width / 2) := by
    refine filter_congr fun k hk => ?_
    rw [h3]
    rw [mem_range] at hk
    omega
  have hr : (range (bins size nperseg)).filter (fun k : ℕ => (k : ℤ) ∈ Spec.rest (bins size nperseg) l) =
      (range (bins size nperseg)).filter (fun k : ℕ => ¬ (k : ℤ) ∈ l) := by
    refine filter_congr fun k hk => ?_
    unfold Spec.rest
    rw [List.mem_filter, List.mem_map]
    simp only [decide_eq_true_eq]
    exact ⟨fun h => h.2, fun h => ⟨⟨k, List.mem_range.2 (mem_range.1 hk), rfl⟩, h⟩⟩
  refine ⟨l, h1, ?_, ?_⟩
  · rw [power_nodup f (h2.imp fun h => ne_of_lt h) fun i hi => ((h3 i).1 hi).1, hsub _ (filter_subset _ _), hl, s _ (by omega)]
  · rw [power_nodup f, hr, hsub _ (filter_subset _ _)]
    · have := sum_filter_add_sum_filter_not (range (bins size nperseg)) (fun k : ℕ => (k : ℤ) ∈ l)
        (fun k : ℕ => Spec.lobe ((k : ℤ) - m) ^ 2)
      rw [t, hl, s _ (by omega)] at this
      rw [eq_sub_of_add_eq' this]
    · unfold Spec.rest
      exact (List.nodup_range.map fun a b h => by exact_mod_cast h).filter _
    · intro i hi
      unfold Spec.rest at hi
      obtain ⟨hi, -⟩ := List.mem_filter.1 hi
      obtain ⟨k, hk, rfl⟩ := List.mem_map.1 hi
      have := List.mem_range.1 hk
      omega

/-- **C180** With a mask of width 6 or more the tone has the power `A^2/2`, and infinite signal-to-noise ratio against the
rest of the bins. -/
theorem C180_snr (A φ fs : ℝ) (hA : A ≠ 0) (hf : 0 < fs) (hm : 3 ≤ m) (hn : 2 * (m + 2) < min nperseg size) (width : ℤ)
    (hw : 6 ≤ width) :
    ∃ (l : List ℤ) (p : ℝ), findOne (bins size nperseg)
        (psd (fun j => A * Real.cos (2 * Real.pi * m * j / (min nperseg size : ℕ) + φ)) size nperseg fs) width = .ok l ∧
      power (bins size nperseg) (psd (fun j => A * Real.cos (2 * Real.pi * m * j / (min nperseg size : ℕ) + φ)) size nperseg fs) l =
        .ok p ∧ p * (freq size nperseg fs 1 - freq size nperseg fs 0) = A ^ 2 / 2 ∧
      snr (bins size nperseg) (psd (fun j => A * Real.cos (2 * Real.pi * m * j / (min nperseg size : ℕ) + φ)) size nperseg fs) l
        (Spec.rest (bins size nperseg) l) = .ok none := by
  obtain ⟨l, h1, h2, h3⟩ := tone_powers A φ fs hA hf hm hn width (by omega)
  rw [if_neg (by omega)] at h2 h3
  refine ⟨l, _, h1, h2, ?_, C77_no_noise _ _ _ _ _ _ h2 h3 (by simp)⟩
  have hn0 : ((min nperseg size : ℕ) : ℝ) ≠ 0 := by
    have : min nperseg size ≠ 0 := by omega
    exact_mod_cast this
  have hl : segmentLength size nperseg = min nperseg size := rfl
  unfold freq
  rw [hl, div_self (by norm_num : (1523 / 5000 : ℝ) ≠ 0), Nat.cast_one, Nat.cast_zero, zero_mul, zero_div, sub_zero, one_mul, mul_one]
  field_simp

example := C180_snr (m := 5) (size := 1000) (nperseg := 64) 3 0 2 (by norm_num) (by norm_num) (by norm_num) (by norm_num) 15
  (by norm_num)

/-- C180 is false for a mask of width 5, although the spectrum of a tone has five bins: the returned mask has four of them,
and every tone, of any amplitude and length, has a signal-to-noise ratio of 1515/8, about 23 dB. -/
theorem C180_width_false (A φ fs : ℝ) (hA : A ≠ 0) (hf : 0 < fs) (hm : 3 ≤ m) (hn : 2 * (m + 2) < min nperseg size) :
    ∃ l : List ℤ, findOne (bins size nperseg)
        (psd (fun j => A * Real.cos (2 * Real.pi * m * j / (min nperseg size : ℕ) + φ)) size nperseg fs) 5 = .ok l ∧
      snr (bins size nperseg) (psd (fun j => A * Real.cos (2 * Real.pi * m * j / (min nperseg size : ℕ) + φ)) size nperseg fs) l
        (Spec.rest (bins size nperseg) l) = .ok (some (1515 / 8)) := by
  obtain ⟨l, h1, h2, h3⟩ := tone_powers A φ fs hA hf hm hn 5 (by omega)
  rw [if_pos (by norm_num)] at h2 h3
  have hn0 : (0 : ℝ) < (min nperseg size : ℕ) := by
    have : 0 < min nperseg size := by omega
    exact_mod_cast this
  have hc : 0 < A ^ 2 * (min nperseg size : ℕ) / (2 * fs) := by positivity
  refine ⟨l, h1, ?_⟩
  unfold snr
  rw [h3, h2]
  dsimp only
  rw [if_pos (mul_pos hc (by norm_num)), mul_div_mul_left _ _ hc.ne']
  norm_num

example := C180_width_false (m := 5) (size := 1000) (nperseg := 64) 3 0 2 (by norm_num) (by norm_num) (by norm_num) (by norm_num)

end Cbadc.Spectrum
