import Mathlib.Algebra.BigOperators.Field
import Mathlib.Tactic.Positivity
import Verif.Lemmas.Welch

/-!
# C179: what the power spectral density adds up to, and the rms values
-/

namespace Cbadc.Spectrum

open Finset

/-- **C179** The densities times the distance of the frequencies add up to the power of the sequence: the average over the
segments of the mean square deviation from the mean of the segment, weighted with the squared window. -/
theorem C179_total (x : ℕ → ℝ) (size nperseg : ℕ) (fs : ℝ) (hs : 0 < size) (hn : 0 < nperseg) (hf : fs ≠ 0) :
    (∑ k ∈ range (bins size nperseg), psd x size nperseg fs k) * (freq size nperseg fs 1 - freq size nperseg fs 0) =
      Spec.averagePower x (min nperseg size) ((size - min nperseg size / 2) / (min nperseg size - min nperseg size / 2)) := by
  have hm : 0 < min nperseg size := lt_min hn hs
  obtain ⟨n, hn'⟩ : ∃ n, n = min nperseg size := ⟨_, rfl⟩
  have hseg : segmentLength size nperseg = n := hn'.symm
  have hS : segments size n = (size - n / 2) / (n - n / 2) := rfl
  unfold Spec.averagePower psd bins freq
  rw [← hn'] at hm ⊢
  rw [hseg]
  dsimp only
  rw [← hS, ← sum_div, sum_comm, div_mul_eq_mul_div, sum_mul]
  congr 1
  refine sum_congr rfl fun s _ => ?_
  have hn0 : (n : ℝ) ≠ 0 := by exact_mod_cast hm.ne'
  have hW := (window_pos hm).ne'
  rw [sum_congr rfl fun k _ => oneSided_div n k _ _, ← sum_div,
    fold hm (F := fun k => ‖rfft n (fun j => blackman n false j * detrend x n (s * (n - n / 2)) j) k‖ ^ 2)
      (fun k hk => by rw [rfft_symm _ hk hm.ne']), parseval]
  unfold Spec.segmentPower
  have h1 : ∑ j ∈ range n, blackman n false j ^ 2 = ∑ j ∈ range n, Spec.window n j ^ 2 :=
    sum_congr rfl fun j _ => by rw [window_eq]
  have h2 : ∑ j ∈ range n, (blackman n false j * detrend x n (s * (n - n / 2)) j) ^ 2 =
      ∑ j ∈ range n, Spec.window n j ^ 2 * (x (s * (n - n / 2) + j) - Spec.mean x n (s * (n - n / 2))) ^ 2 :=
    sum_congr rfl fun j _ => by rw [window_eq, mul_pow]; rfl
  rw [h1, h2]
  push_cast
  field_simp
  ring

/-- a thousand values of a ramp in segments of 256 -/
example := C179_total (fun j => j) 1000 256 2 (by norm_num) (by norm_num) (by norm_num)

/-- **C179** The densities are not negative; an offset of the sequence does not appear in them, and a factor appears
squared. -/
theorem C179_affine (x : ℕ → ℝ) (size nperseg : ℕ) (fs a b : ℝ) (hs : 0 < size) (hn : 0 < nperseg) (hf : 0 < fs) (k : ℕ) :
    0 ≤ psd x size nperseg fs k ∧ psd (fun j => a * x j + b) size nperseg fs k = a ^ 2 * psd x size nperseg fs k := by
  have hm : 0 < segmentLength size nperseg := lt_min hn hs
  have hd : ∀ s j, detrend (fun j => a * x j + b) (segmentLength size nperseg) s j =
      a * detrend x (segmentLength size nperseg) s j := by
    intro s j
    have hn0 : (segmentLength size nperseg : ℝ) ≠ 0 := by exact_mod_cast hm.ne'
    unfold detrend
    rw [sum_add_distrib, ← mul_sum, sum_const, card_range, nsmul_eq_mul]
    field_simp
    ring
  have hr : ∀ n (y : ℕ → ℝ), ‖rfft n (fun j => a * y j) k‖ ^ 2 = a ^ 2 * ‖rfft n y k‖ ^ 2 := by
    intro n y
    have : rfft n (fun j => a * y j) k = (a : ℂ) * rfft n y k := by
      unfold rfft
      rw [mul_sum]
      refine sum_congr rfl fun j _ => ?_
      push_cast
      ring
    rw [this, norm_mul, mul_pow, Complex.norm_real, Real.norm_eq_abs, sq_abs]
  constructor
  · unfold psd
    dsimp only
    refine div_nonneg (sum_nonneg fun s _ => ?_) (Nat.cast_nonneg _)
    have h0 : 0 ≤ ‖rfft (segmentLength size nperseg) (fun j => blackman (segmentLength size nperseg) false j *
        detrend x (segmentLength size nperseg) (s * (segmentLength size nperseg - segmentLength size nperseg / 2)) j) k‖ ^ 2 /
        (fs * ∑ j ∈ range (segmentLength size nperseg), blackman (segmentLength size nperseg) false j ^ 2) :=
      div_nonneg (sq_nonneg _) (mul_nonneg hf.le (sum_nonneg fun _ _ => sq_nonneg _))
    unfold oneSided
    split_ifs <;> linarith
  · unfold psd
    dsimp only
    refine Eq.trans ?_ (mul_div_assoc _ _ _)
    congr 1
    refine Eq.trans ?_ (mul_sum _ _ _).symm
    refine sum_congr rfl fun s _ => ?_
    have : (fun j => blackman (segmentLength size nperseg) false j * detrend (fun j => a * x j + b) (segmentLength size nperseg)
        (s * (segmentLength size nperseg - segmentLength size nperseg / 2)) j) = fun j => a *
        (blackman (segmentLength size nperseg) false j * detrend x (segmentLength size nperseg)
        (s * (segmentLength size nperseg - segmentLength size nperseg / 2)) j) := by
      funext j
      rw [hd]
      ring
    rw [this, hr]
    unfold oneSided
    split_ifs <;> ring

example := C179_affine (fun j => j) 1000 256 2 3 5 (by norm_num) (by norm_num) (by norm_num) 7

/-- **C179**, the part that holds for the rms values: with all bins as noise, `noise_rms` squared is `n/(n/2 + 1)` times the
power of the sequence, `n` being the length of the segments.  Missing: that it is the power; see `C179_rms_false`. -/
theorem C179_rms_partial (x : ℕ → ℝ) (size nperseg : ℕ) (fs : ℝ) (hs : 0 < size) (hn : 0 < nperseg) (hf : 0 < fs)
    (sm : List ℤ) (hsm : ∀ i ∈ sm, 0 ≤ i ∧ i < bins size nperseg) :
    ∃ r, rmsValues (bins size nperseg) (psd x size nperseg fs) sm ((List.range (bins size nperseg)).map fun k : ℕ => (k : ℤ)) fs = .ok r ∧
      r.noise ^ 2 = (min nperseg size : ℕ) / ((min nperseg size / 2 + 1 : ℕ) : ℝ) *
        Spec.averagePower x (min nperseg size) ((size - min nperseg size / 2) / (min nperseg size - min nperseg size / 2)) := by
  obtain ⟨p, hp⟩ := power_ok (psd x size nperseg fs) hsm
  refine ⟨_, by unfold rmsValues; rw [power_range _ _ _ le_rfl, hp], ?_⟩
  dsimp only
  have hm : ((min nperseg size : ℕ) : ℝ) ≠ 0 := by exact_mod_cast (lt_min hn hs).ne'
  have h0 : 0 ≤ ∑ k ∈ range (bins size nperseg), psd x size nperseg fs k :=
    sum_nonneg fun k _ => (C179_affine x size nperseg fs 1 0 hs hn hf k).1
  rw [Real.sq_sqrt (mul_nonneg h0 (div_nonneg hf.le (Nat.cast_nonneg _))), ← C179_total x size nperseg fs hs hn hf.ne']
  have hb : bins size nperseg = min nperseg size / 2 + 1 := rfl
  have hl : segmentLength size nperseg = min nperseg size := rfl
  unfold freq
  rw [hb, hl, Nat.cast_one, Nat.cast_zero, zero_mul, zero_div, sub_zero, one_mul]
  field_simp

example := C179_rms_partial (fun j => j) 1000 256 2 (by norm_num) (by norm_num) (by norm_num) [3, 4] (by
  intro i hi
  have : bins 1000 256 = 129 := by decide
  rw [this]
  simp only [List.mem_cons, List.not_mem_nil, or_false] at hi
  omega)

/-- C179 is false for the rms value: that of the sequence 1, -1, 1, -1, ... of any even length `2 m` is reported as
`sqrt(2 m/(m + 1))`, which tends to the square root of two. -/
theorem C179_rms_false (m : ℕ) (hm : 2 ≤ m) (fs : ℝ) (hf : 0 < fs) :
    Spec.averagePower (fun j => (-1) ^ j) (2 * m) 1 = 1 ∧
    ∃ r, rmsValues (bins (2 * m) (2 * m)) (psd (fun j => (-1) ^ j) (2 * m) (2 * m) fs) []
        ((List.range (bins (2 * m) (2 * m))).map fun k : ℕ => (k : ℤ)) fs = .ok r ∧
      r.noise ^ 2 = 2 * m / (m + 1) ∧ 4 / 3 ≤ r.noise ^ 2 := by
  have h1 : Spec.averagePower (fun j => (-1) ^ j) (2 * m) 1 = 1 := by
    have hz : Spec.mean (fun j => (-1) ^ j) (2 * m) 0 = 0 := by
      unfold Spec.mean
      have : ∑ j ∈ range (2 * m), ((-1 : ℝ)) ^ (0 + j) = 0 := by
        clear hm
        induction m with
        | zero => simp
        | succ m ih =>
          rw [Nat.mul_succ, sum_range_succ, sum_range_succ, ih, zero_add, zero_add, zero_add, pow_succ]
          ring
      rw [this, zero_div]
    unfold Spec.averagePower Spec.segmentPower
    rw [sum_range_one, zero_mul, hz, Nat.cast_one, div_one]
    have : ∀ j ∈ range (2 * m), Spec.window (2 * m) j ^ 2 * (((-1 : ℝ)) ^ (0 + j) - 0) ^ 2 = Spec.window (2 * m) j ^ 2 := by
      intro j _
      rw [sub_zero, ← pow_mul, mul_comm (0 + j), pow_mul]
      norm_num
    rw [sum_congr rfl this]
    exact div_self (window_pos (by omega)).ne'
  obtain ⟨r, hr, e⟩ := C179_rms_partial (fun j => (-1) ^ j) (2 * m) (2 * m) fs (by omega) (by omega) hf [] (by simp)
  have e1 : 2 * m / 2 = m := by omega
  have e2 : (2 * m - m) / (2 * m - m) = 1 := Nat.div_self (by omega)
  rw [min_self, e1, e2, h1, mul_one] at e
  push_cast at e
  have h3 : (2 : ℝ) ≤ m := by exact_mod_cast hm
  refine ⟨h1, r, hr, e, ?_⟩
  rw [e, div_le_div_iff₀ (by norm_num) (by linarith)]
  linarith

example := C179_rms_false 512 (by norm_num) 1 one_pos

/-- **C179** What the rms values have to do with the signal-to-noise ratio: their squared quotient is at least the ratio,
`NG/CG^2` times it.  (With two bins the window is zero and `CG` with it.) -/
theorem C179_ratio (size : ℕ) (f : ℕ → ℝ) (fs : ℝ) (sm nm : List ℤ) (s n : ℝ) (h0 : size ≠ 0) (h2 : size ≠ 2) (hf : 0 < fs)
    (hs : power size f sm = .ok s) (hn : power size f nm = .ok n) (s0 : 0 ≤ s) (n0 : 0 < n) :
    ∃ r q, rmsValues size f sm nm fs = .ok r ∧ snr size f sm nm = .ok (some q) ∧
      (r.signal / r.noise) ^ 2 = noiseGain size / coherentGain size ^ 2 * q ∧ q ≤ (r.signal / r.noise) ^ 2 := by
  have hc := coherentGain_pos h0 h2
  have hg := gain_le size
  have hN : (0 : ℝ) < size := by exact_mod_cast Nat.pos_of_ne_zero h0
  have hng : 0 ≤ noiseGain size := (sq_nonneg _).trans hg
  have e : ((Real.sqrt (s * noiseGain size * (fs / size) / coherentGain size ^ 2)) / Real.sqrt (n * (fs / size))) ^ 2 =
      noiseGain size / coherentGain size ^ 2 * (s / n) := by
    rw [div_pow, Real.sq_sqrt (by positivity), Real.sq_sqrt (by positivity)]
    field_simp
  refine ⟨_, s / n, by unfold rmsValues; rw [hn, hs], by unfold snr; rw [hn, hs]; exact congrArg _ (if_pos n0), e, ?_⟩
  rw [e]
  refine le_mul_of_one_le_left (by positivity) ?_
  rw [le_div_iff₀ (by positivity)]
  linarith

example := C179_ratio 4 (fun i => i + 1) 1 [1] [2, 3] 2 7 (by norm_num) (by norm_num) one_pos
  (by simp [power, at1]; norm_num) (by simp [power, at1]; norm_num) (by norm_num) (by norm_num)

/-- C179 is false for the quotient of the rms values: with three bins its square is three times the ratio. -/
theorem C179_ratio_false : ∃ r, rmsValues 3 (fun i => if i = 1 then 5 else 1) [1] [2] 1 = .ok r ∧
    snr 3 (fun i => if i = 1 then 5 else 1) [1] [2] = .ok (some 5) ∧ (r.signal / r.noise) ^ 2 = 15 := by
  have hs : power 3 (fun i => if i = 1 then (5 : ℝ) else 1) [1] = .ok 5 := by simp [power, at1]
  have hn : power 3 (fun i => if i = 1 then (5 : ℝ) else 1) [2] = .ok 1 := by simp [power, at1]
  obtain ⟨r, q, hr, hq, e, -⟩ := C179_ratio 3 _ 1 [1] [2] 5 1 (by norm_num) (by norm_num) one_pos hs hn (by norm_num) one_pos
  have hq' : snr 3 (fun i => if i = 1 then (5 : ℝ) else 1) [1] [2] = .ok (some 5) := by
    unfold snr
    rw [hn, hs]
    norm_num
  rw [hq'] at hq
  obtain rfl : (5 : ℝ) = q := Option.some.inj (Except.ok.inj hq)
  refine ⟨r, hr, hq', ?_⟩
  rw [e]
  have b0 : blackman 3 true 0 = 0 := by norm_num [blackman]
  have b1 : blackman 3 true 1 = 1 := by
    obtain ⟨c, hc, e⟩ := blackman_factor 3 true 1 (by norm_num)
    have : c = -1 := by
      rw [hc, if_pos rfl, ← Real.cos_pi]
      congr 1
      push_cast
      ring
    rw [e, this]
    norm_num
  have b2 : blackman 3 true 2 = 0 := by
    obtain ⟨c, hc, e⟩ := blackman_factor 3 true 2 (by norm_num)
    have : c = 1 := by
      rw [hc, if_pos rfl, show 2 * Real.pi * ((2 : ℕ) : ℝ) / (((3 : ℕ) : ℝ) - 1) = 2 * Real.pi by push_cast; ring, Real.cos_two_pi]
    rw [e, this]
    norm_num
  unfold noiseGain coherentGain
  simp only [sum_range_succ, sum_range_zero, b0, b1, b2]
  norm_num

end Cbadc.Spectrum
