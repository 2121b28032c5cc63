import Mathlib.Analysis.InnerProductSpace.PiL2
import Verif.Props.Disturbed
import Verif.Props.Mixture

/-!
# C184: rms values over bins obey the triangle inequality
-/

namespace Cbadc.Spectrum

open Finset

variable {m size nperseg : ℕ}

/-- Minkowski's inequality. -/
theorem sqrt_sum_le {ι : Type*} (s : Finset ι) {a b c : ι → ℝ} (ha : ∀ i, 0 ≤ a i) (h : ∀ i, a i ≤ b i + c i) :
    Real.sqrt (∑ i ∈ s, a i ^ 2) ≤ Real.sqrt (∑ i ∈ s, b i ^ 2) + Real.sqrt (∑ i ∈ s, c i ^ 2) := by
  have hb : 0 ≤ ∑ i ∈ s, b i ^ 2 := sum_nonneg fun _ _ => sq_nonneg _
  have hc : 0 ≤ ∑ i ∈ s, c i ^ 2 := sum_nonneg fun _ _ => sq_nonneg _
  rw [Real.sqrt_le_left (by positivity), add_sq, Real.sq_sqrt hb, Real.sq_sqrt hc]
  have h1 : ∑ i ∈ s, a i ^ 2 ≤ ∑ i ∈ s, (b i + c i) ^ 2 := sum_le_sum fun i _ => pow_le_pow_left₀ (ha i) (h i) 2
  have h2 : ∑ i ∈ s, (b i + c i) ^ 2 = ∑ i ∈ s, b i ^ 2 + 2 * ∑ i ∈ s, b i * c i + ∑ i ∈ s, c i ^ 2 := by
    rw [mul_sum, ← sum_add_distrib, ← sum_add_distrib]
    exact sum_congr rfl fun i _ => by ring
  have h3 := Real.sum_mul_le_sqrt_mul_sqrt s b c
  linarith

theorem oneSided_mul (n k : ℕ) (r : ℝ) : oneSided n k r = oneSided n k 1 * r := by
  unfold oneSided
  split_ifs <;> ring

theorem oneSided_nonneg (n k : ℕ) : 0 ≤ oneSided n k 1 := by
  unfold oneSided
  split_ifs <;> norm_num

/-- The power in some bins as a sum of squares over segments and bins. -/
theorem power_squares (x : ℕ → ℝ) (size nperseg : ℕ) {fs g : ℝ} (hf : 0 ≤ fs) (hg : 0 ≤ g) (M : Finset ℕ) {n : ℕ}
    (hl : segmentLength size nperseg = n) :
    (∑ k ∈ M, psd x size nperseg fs k) * g = ∑ i ∈ M ×ˢ range (segments size n),
      (Real.sqrt (oneSided n i.1 1 / (fs * ∑ j ∈ range n, blackman n false j ^ 2) / segments size n * g) *
        segBin x n i.2 i.1) ^ 2 := by
  rw [sum_product, sum_mul]
  refine sum_congr rfl fun k _ => ?_
  unfold psd
  rw [hl]
  dsimp only
  rw [sum_div, sum_mul]
  refine sum_congr rfl fun s _ => ?_
  have h0 : 0 ≤ oneSided n k 1 / (fs * ∑ j ∈ range n, blackman n false j ^ 2) / segments size n * g :=
    mul_nonneg (div_nonneg (div_nonneg (oneSided_nonneg n k) (mul_nonneg hf (sum_nonneg fun _ _ => sq_nonneg _)))
      (Nat.cast_nonneg _)) hg
  rw [mul_pow, Real.sq_sqrt h0, oneSided_mul]
  unfold segBin
  ring

/-- The bins of a sum. -/
theorem segBin_add (x y : ℕ → ℝ) (n s k : ℕ) : segBin (fun j => x j + y j) n s k ≤ segBin x n s k + segBin y n s k := by
  unfold segBin
  refine le_trans (le_of_eq ?_) (norm_add_le _ _)
  congr 1
  unfold rfft
  rw [← sum_add_distrib]
  refine sum_congr rfl fun j _ => ?_
  dsimp only
  unfold detrend
  rw [sum_add_distrib]
  push_cast
  ring

/-- The triangle inequality over any set of bins. -/
theorem power_triangle (x y : ℕ → ℝ) (size nperseg : ℕ) {fs g : ℝ} (hf : 0 ≤ fs) (hg : 0 ≤ g) (M : Finset ℕ) :
    Real.sqrt ((∑ k ∈ M, psd (fun j => x j + y j) size nperseg fs k) * g) ≤
      Real.sqrt ((∑ k ∈ M, psd x size nperseg fs k) * g) + Real.sqrt ((∑ k ∈ M, psd y size nperseg fs k) * g) := by
  rw [power_squares _ size nperseg hf hg M rfl, power_squares _ size nperseg hf hg M rfl, power_squares _ size nperseg hf hg M rfl]
  refine sqrt_sum_le _ (fun i => mul_nonneg (Real.sqrt_nonneg _) (norm_nonneg _)) fun i => ?_
  rw [← mul_add]
  exact mul_le_mul_of_nonneg_left (segBin_add _ _ _ _ _) (Real.sqrt_nonneg _)

/-- **C184** The rms values that `snr_spectrum_computation_extended` returns for a sum of two sequences are at most the sums of
theirs. -/
theorem C184_triangle (x y : ℕ → ℝ) (size nperseg : ℕ) (fs : ℝ) (hf : 0 ≤ fs) (sm nm : List ℤ) (hs : sm.Nodup) (hn : nm.Nodup)
    (hsin : ∀ z ∈ sm, 0 ≤ z ∧ z < bins size nperseg) (hnin : ∀ z ∈ nm, 0 ≤ z ∧ z < bins size nperseg) :
    ∃ rx ry r, rmsValues (bins size nperseg) (psd x size nperseg fs) sm nm fs = .ok rx ∧
      rmsValues (bins size nperseg) (psd y size nperseg fs) sm nm fs = .ok ry ∧
      rmsValues (bins size nperseg) (psd (fun j => x j + y j) size nperseg fs) sm nm fs = .ok r ∧
      r.noise ≤ rx.noise + ry.noise ∧ r.signal ≤ rx.signal + ry.signal := by
  refine ⟨_, _, _, by unfold rmsValues; rw [power_nodup _ hs hsin, power_nodup _ hn hnin],
    by unfold rmsValues; rw [power_nodup _ hs hsin, power_nodup _ hn hnin],
    by unfold rmsValues; rw [power_nodup _ hs hsin, power_nodup _ hn hnin], ?_, ?_⟩
  · exact power_triangle x y size nperseg hf (div_nonneg hf (Nat.cast_nonneg _)) _
  · have hNG : 0 ≤ noiseGain (bins size nperseg) := div_nonneg (sum_nonneg fun _ _ => sq_nonneg _) (Nat.cast_nonneg _)
    have h := power_triangle x y size nperseg hf (g := noiseGain (bins size nperseg) * (fs / (bins size nperseg : ℕ)) /
      coherentGain (bins size nperseg) ^ 2) (div_nonneg (mul_nonneg hNG (div_nonneg hf (Nat.cast_nonneg _))) (sq_nonneg _))
      ((range (bins size nperseg)).filter fun k : ℕ => (k : ℤ) ∈ sm)
    dsimp only
    simp only [mul_assoc, mul_div_assoc] at h ⊢
    exact h

/-- a ramp and a square wave -/
example := C184_triangle (fun j => j) (fun j => (-1) ^ (j / 7)) 1000 256 2 (by norm_num) [3, 4] [7, 8] (by decide) (by decide)
  (by decide) (by decide)

/-- **C184** The root of the power in the bins of any mask changes by at most `2 δ` if no sample changes by more than `δ`. -/
theorem C184_close (x y : ℕ → ℝ) (size nperseg : ℕ) (fs δ : ℝ) (hs : 0 < size) (hn : 0 < nperseg) (hf : 0 < fs)
    (h : ∀ j < size, |x j - y j| ≤ δ) (mask : List ℤ) (hmask : mask.Nodup) (hin : ∀ z ∈ mask, 0 ≤ z ∧ z < bins size nperseg) :
    ∃ p q, power (bins size nperseg) (psd x size nperseg fs) mask = .ok p ∧
      power (bins size nperseg) (psd y size nperseg fs) mask = .ok q ∧
      |Real.sqrt (p * (freq size nperseg fs 1 - freq size nperseg fs 0)) -
        Real.sqrt (q * (freq size nperseg fs 1 - freq size nperseg fs 0))| ≤ 2 * δ := by
  refine ⟨_, _, power_nodup _ hmask hin, power_nodup _ hmask hin, ?_⟩
  have hm0 : 0 < min nperseg size := lt_min hn hs
  have hn0 : (0 : ℝ) < (min nperseg size : ℕ) := by exact_mod_cast hm0
  have hg : 0 ≤ freq size nperseg fs 1 - freq size nperseg fs 0 := by
    have hl : segmentLength size nperseg = min nperseg size := rfl
    unfold freq
    rw [hl]
    simp only [Nat.cast_one, one_mul, Nat.cast_zero, zero_mul, zero_div, sub_zero]
    positivity
  have hδ : 0 ≤ δ := (abs_nonneg _).trans (h 0 hs)
  have key : ∀ u v : ℕ → ℝ, (∀ j < size, |u j - v j| ≤ δ) →
      Real.sqrt ((∑ k ∈ (range (bins size nperseg)).filter fun k : ℕ => (k : ℤ) ∈ mask, psd u size nperseg fs k) *
        (freq size nperseg fs 1 - freq size nperseg fs 0)) ≤
      Real.sqrt ((∑ k ∈ (range (bins size nperseg)).filter fun k : ℕ => (k : ℤ) ∈ mask, psd v size nperseg fs k) *
        (freq size nperseg fs 1 - freq size nperseg fs 0)) + 2 * δ := by
    intro u v huv
    have havg := averagePower_le (fun j => u j - v j) hm0 (min_le_right _ _) huv
    have hS : segments size (min nperseg size) =
      (size - min nperseg size / 2) / (min nperseg size - min nperseg size / 2) := rfl
    rw [hS, ← C179_total _ size nperseg fs hs hn hf.ne'] at havg
    have hE : Real.sqrt ((∑ k ∈ (range (bins size nperseg)).filter fun k : ℕ => (k : ℤ) ∈ mask,
        psd (fun j => u j - v j) size nperseg fs k) * (freq size nperseg fs 1 - freq size nperseg fs 0)) ≤ 2 * δ := by
      rw [Real.sqrt_le_left (by positivity)]
      have := mul_le_mul_of_nonneg_right (sum_le_sum_of_subset_of_nonneg
        (filter_subset (fun k : ℕ => (k : ℤ) ∈ mask) (range (bins size nperseg))) fun k _ _ =>
        (C179_affine (fun j => u j - v j) size nperseg fs 1 0 hs hn hf k).1) hg
      linarith
    have ht := power_triangle v (fun j => u j - v j) size nperseg hf.le hg
      ((range (bins size nperseg)).filter fun k : ℕ => (k : ℤ) ∈ mask)
    have hback : (fun j => v j + (u j - v j)) = u := by
      funext j
      ring
    rw [hback] at ht
    linarith
  rw [abs_le]
  have h1 := key x y h
  have h2 := key y x fun j hj => by rw [abs_sub_comm]; exact h j hj
  constructor <;> linarith

/-- a ramp and the ramp with a square wave on top -/
example := C184_close (fun j => j) (fun j => j + (-1) ^ (j / 7) / 2) 1000 256 2 (1 / 2) (by norm_num) (by norm_num) (by norm_num)
  (fun j _ => by rw [sub_add_cancel_left, abs_neg, abs_div, abs_pow]; norm_num) [3, 4] (by decide) (by decide)

/-- **C184** The power that is measured for a tone with a disturbance of at most `δ`: its root is that of the power of the tone,
`|A|/√2`, up to `2 δ`, for every mask that covers the tone with two bins on either side. -/
theorem C184_tone (A φ fs δ : ℝ) (e : ℕ → ℝ) (hf : 0 < fs) (hm : 3 ≤ m) (hn : 2 * (m + 2) < min nperseg size)
    (he : ∀ j < size, |e j| ≤ δ) (mask : List ℤ) (hmask : mask.Nodup) (hin : ∀ z ∈ mask, 0 ≤ z ∧ z < bins size nperseg)
    (hcov : ∀ d : ℤ, |d| ≤ 2 → (m : ℤ) + d ∈ mask) :
    ∃ p, power (bins size nperseg) (psd (fun j => A * Real.cos (2 * Real.pi * m * j / (min nperseg size : ℕ) + φ) + e j)
        size nperseg fs) mask = .ok p ∧
      |Real.sqrt (p * (freq size nperseg fs 1 - freq size nperseg fs 0)) - |A| / Real.sqrt 2| ≤ 2 * δ := by
  obtain ⟨p, q, hp, hq, h⟩ := C184_close (fun j => A * Real.cos (2 * Real.pi * m * j / (min nperseg size : ℕ) + φ) + e j)
    (fun j => A * Real.cos (2 * Real.pi * m * j / (min nperseg size : ℕ) + φ)) size nperseg fs δ (by omega) (by omega) hf
    (fun j hj => by rw [add_sub_cancel_left]; exact he j hj) mask hmask hin
  obtain ⟨p0, hp0, hpow⟩ := C181_power (ι := Unit) (m := fun _ => m) (fun _ => A) (fun _ => φ) fs hf (fun _ => hm) (fun _ => hn)
    (fun i l h => absurd rfl h) (by omega) univ mask hmask hin (fun _ _ => hcov) (fun i hi => absurd (mem_univ i) hi)
  simp only [univ_unique, sum_singleton] at hp0 hpow
  rw [hq] at hp0
  obtain rfl := Except.ok.inj hp0
  rw [hpow, Real.sqrt_div (sq_nonneg A), Real.sqrt_sq_eq_abs] at h
  exact ⟨p, hp, h⟩

/-- a tone of amplitude 3 in segments of 64, with a square wave on top -/
example := C184_tone (m := 5) (size := 1000) (nperseg := 64) 3 0 2 (1 / 2) (fun j => (-1) ^ (j / 7) / 2) (by norm_num)
  (by norm_num) (by norm_num) (fun j _ => by rw [abs_div, abs_pow]; norm_num) [2, 3, 4, 5, 6, 7, 8] (by decide) (by decide) (by
    intro d hd
    obtain ⟨h1, h2⟩ := abs_le.1 hd
    interval_cases d <;> decide)

/-- **C184** With any signal mask that covers the tone and any noise mask that stays two bins clear of it, the signal-to-noise ratio
of a tone with a disturbance of at most `δ` is at least `((|A|/√2 - 2 δ)/(2 δ))^2`. -/
theorem C184_snr (A φ fs δ : ℝ) (e : ℕ → ℝ) (hf : 0 < fs) (hm : 3 ≤ m) (hn : 2 * (m + 2) < min nperseg size)
    (he : ∀ j < size, |e j| ≤ δ) (hδ : 2 * δ ≤ |A| / Real.sqrt 2) (sm nm : List ℤ) (hs : sm.Nodup)
    (hsin : ∀ z ∈ sm, 0 ≤ z ∧ z < bins size nperseg) (hcov : ∀ d : ℤ, |d| ≤ 2 → (m : ℤ) + d ∈ sm) (hnd : nm.Nodup)
    (hnin : ∀ z ∈ nm, 0 ≤ z ∧ z < bins size nperseg) (hclear : ∀ d : ℤ, |d| ≤ 2 → (m : ℤ) + d ∉ nm) :
    ∃ r, snr (bins size nperseg) (psd (fun j => A * Real.cos (2 * Real.pi * m * j / (min nperseg size : ℕ) + φ) + e j)
        size nperseg fs) sm nm = .ok r ∧ ∀ q, r = some q → (|A| / Real.sqrt 2 - 2 * δ) ^ 2 ≤ q * (2 * δ) ^ 2 := by
  obtain ⟨p, hp, hpt⟩ := C184_tone A φ fs δ e hf hm hn he sm hs hsin hcov
  have hN := power_nodup (psd (fun j => A * Real.cos (2 * Real.pi * m * j / (min nperseg size : ℕ) + φ) + e j)
        size nperseg fs) hnd hnin
  refine ⟨_, by unfold snr; rw [hN, hp], ?_⟩
  intro q hq
  split_ifs at hq with hpos
  obtain rfl := Option.some.inj hq
  have hn0 : (0 : ℝ) < (min nperseg size : ℕ) := by exact_mod_cast (by omega : 0 < min nperseg size)
  have hg : 0 < freq size nperseg fs 1 - freq size nperseg fs 0 := by
    have hl : segmentLength size nperseg = min nperseg size := rfl
    unfold freq
    rw [hl]
    simp only [Nat.cast_one, one_mul, Nat.cast_zero, zero_mul, zero_div, sub_zero]
    positivity
  have havg := averagePower_le e (by omega : 0 < min nperseg size) (min_le_right _ _) he
  have hS : segments size (min nperseg size) =
    (size - min nperseg size / 2) / (min nperseg size - min nperseg size / 2) := rfl
  rw [hS, ← C179_total e size nperseg fs (by omega) (by omega) hf.ne'] at havg
  have hnoise : ∑ k ∈ (range (bins size nperseg)).filter (fun k : ℕ => (k : ℤ) ∈ nm),
      psd (fun j => A * Real.cos (2 * Real.pi * m * j / (min nperseg size : ℕ) + φ) + e j) size nperseg fs k ≤
      ∑ k ∈ range (bins size nperseg), psd e size nperseg fs k := by
    have hc : ∀ k ∈ (range (bins size nperseg)).filter (fun k : ℕ => (k : ℤ) ∈ nm),
        psd (fun j => A * Real.cos (2 * Real.pi * m * j / (min nperseg size : ℕ) + φ) + e j) size nperseg fs k =
          psd e size nperseg fs k := by
      intro k hk
      obtain ⟨hk1, hk2⟩ := mem_filter.1 hk
      refine C183_clear A φ fs e hm hn k (mem_range.1 hk1) (not_le.1 fun hd => hclear _ hd ?_)
      rwa [add_sub_cancel]
    rw [sum_congr rfl hc]
    exact sum_le_sum_of_subset_of_nonneg (filter_subset _ _) fun k _ _ =>
      (C179_affine e size nperseg fs 1 0 (by omega) (by omega) hf k).1
  obtain ⟨ν, hν⟩ : ∃ ν, ν = ∑ k ∈ (range (bins size nperseg)).filter (fun k : ℕ => (k : ℤ) ∈ nm),
      psd (fun j => A * Real.cos (2 * Real.pi * m * j / (min nperseg size : ℕ) + φ) + e j) size nperseg fs k := ⟨_, rfl⟩
  rw [← hν] at hnoise hpos ⊢
  obtain ⟨g, hge⟩ : ∃ g, g = freq size nperseg fs 1 - freq size nperseg fs 0 := ⟨_, rfl⟩
  rw [← hge] at hg havg hpt
  have h1 : ν * g ≤ (2 * δ) ^ 2 := by
    have := mul_le_mul_of_nonneg_right hnoise hg.le
    linarith
  have h2 : |A| / Real.sqrt 2 - 2 * δ ≤ Real.sqrt (p * g) := by
    have := (abs_le.1 hpt).1
    linarith
  have hp0 : 0 ≤ p * g := by
    rw [power_nodup _ hs hsin] at hp
    obtain rfl := Except.ok.inj hp
    exact mul_nonneg (sum_nonneg fun k _ => (C179_affine (fun j => A *
      Real.cos (2 * Real.pi * m * j / (min nperseg size : ℕ) + φ) + e j) size nperseg fs 1 0 (by omega) (by omega) hf k).1) hg.le
  have h3 := pow_le_pow_left₀ (sub_nonneg.2 hδ) h2 2
  rw [Real.sq_sqrt hp0] at h3
  refine h3.trans ?_
  have hp1 : 0 ≤ p := nonneg_of_mul_nonneg_left hp0 hg
  calc p * g = p / ν * (ν * g) := by field_simp
    _ ≤ p / ν * (2 * δ) ^ 2 := mul_le_mul_of_nonneg_left h1 (div_nonneg hp1 hpos.le)

/-- the same tone and square wave -/
example := C184_snr (m := 5) (size := 1000) (nperseg := 64) 3 0 2 (1 / 2) (fun j => (-1) ^ (j / 7) / 2) (by norm_num)
  (by norm_num) (by norm_num) (fun j _ => by rw [abs_div, abs_pow]; norm_num)
  (by
    rw [le_div_iff₀ (by positivity)]
    have := Real.sqrt_le_sqrt (show (2 : ℝ) ≤ 3 ^ 2 by norm_num)
    rw [Real.sqrt_sq (by norm_num)] at this
    norm_num
    linarith) [2, 3, 4, 5, 6, 7, 8] [0, 1, 9, 10, 11] (by decide) (by decide) (by
    intro d hd
    obtain ⟨h1, h2⟩ := abs_le.1 hd
    interval_cases d <;> decide) (by decide) (by decide) (by
    intro d hd
    obtain ⟨h1, h2⟩ := abs_le.1 hd
    interval_cases d <;> decide)

end Cbadc.Spectrum
