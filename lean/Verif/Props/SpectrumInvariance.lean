import Verif.Props.Welch

/-!
# C182: gain, offset, sampling frequency and trailing samples in the evaluation of a spectrum
-/

namespace Cbadc.Spectrum

open Finset

section scaled

variable {c : ℝ} {f g : ℕ → ℝ}

/-- The largest entry of a scaled spectrum is at the same place. -/
theorem argmaxUpTo_scaled (hc : 0 < c) (h : ∀ k, g k = c * f k) (n : ℕ) : argmaxUpTo g n = argmaxUpTo f n := by
  induction n with
  | zero => rfl
  | succ k ih =>
    unfold argmaxUpTo
    rw [ih, h, h, abs_mul, abs_mul, abs_of_pos hc]
    simp only [mul_lt_mul_iff_right₀ hc]

/-- The search for peaks takes the same course on a scaled spectrum. -/
theorem findLoop_scaled (hc : 0 < c) (size : ℕ) (width dist : ℤ) (n : ℕ) (acc : List ℤ) (h : ∀ k, g k = c * f k) :
    findLoop size width dist n g acc = findLoop size width dist n f acc := by
  induction n generalizing f g acc with
  | zero => rfl
  | succ n ih =>
    unfold findLoop
    have : argmax size g = argmax size f := by
      cases size with
      | zero => rfl
      | succ k => exact congrArg Except.ok (argmaxUpTo_scaled hc h k)
    rw [this]
    cases argmax size f with
    | error e => rfl
    | ok p =>
      refine ih _ fun k => ?_
      unfold zeroAt
      split_ifs
      · rw [mul_zero]
      · exact h k

/-- The sum over a mask is scaled. -/
theorem power_scaled (size : ℕ) (h : ∀ k, g k = c * f k) (l : List ℤ) :
    power size g l = (match power size f l with | .error e => .error e | .ok p => .ok (c * p)) := by
  induction l with
  | nil => simp [power]
  | cons i r ih =>
    have h1 : at1 size g i = (match at1 size f i with | .error e => .error e | .ok p => .ok (c * p)) := by
      unfold at1
      split_ifs <;> simp [h]
    unfold power
    rw [h1, ih]
    cases at1 size f i with
    | error e => rfl
    | ok x =>
      cases power size f r with
      | error e => rfl
      | ok s => simp [mul_add]

end scaled

/-- The spectrum with another gain, offset and sampling frequency. -/
theorem psd_affine_fs (x : ℕ → ℝ) (size nperseg : ℕ) (fs fs' a b : ℝ) (hs : 0 < size) (hn : 0 < nperseg) (hf : 0 < fs)
    (hf' : 0 < fs') (k : ℕ) :
    psd (fun j => a * x j + b) size nperseg fs' k = a ^ 2 * (fs / fs') * psd x size nperseg fs k := by
  rw [(C179_affine x size nperseg fs' a b hs hn hf' k).2, mul_assoc]
  congr 1
  unfold psd
  dsimp only
  rw [← mul_div_assoc]
  congr 1
  refine Eq.trans ?_ (mul_sum _ _ _).symm
  refine sum_congr rfl fun s _ => ?_
  rw [oneSided_div, oneSided_div]
  field_simp

/-- **C182** The bins that the peak search finds do not depend on the gain (and its sign) and the offset with which the
sequence was recorded, nor on the sampling frequency that is given. -/
theorem C182_peaks (x : ℕ → ℝ) (size nperseg : ℕ) (fs fs' a b : ℝ) (hs : 0 < size) (hn : 0 < nperseg) (hf : 0 < fs)
    (hf' : 0 < fs') (ha : a ≠ 0) (n width : ℤ) (dist : Option ℤ) :
    findN (bins size nperseg) (psd (fun j => a * x j + b) size nperseg fs') n width dist =
        findN (bins size nperseg) (psd x size nperseg fs) n width dist ∧
      findOne (bins size nperseg) (psd (fun j => a * x j + b) size nperseg fs') width =
        findOne (bins size nperseg) (psd x size nperseg fs) width := by
  have h : ∀ n dist, findN (bins size nperseg) (psd (fun j => a * x j + b) size nperseg fs') n width dist =
      findN (bins size nperseg) (psd x size nperseg fs) n width dist := by
    intro n dist
    unfold findN
    rw [findLoop_scaled (c := a ^ 2 * (fs / fs')) (by positivity) _ _ _ _ _
      (psd_affine_fs x size nperseg fs fs' a b hs hn hf hf')]
  refine ⟨h n dist, ?_⟩
  unfold findOne
  rw [h]

/-- a ramp recorded upside down with an offset -/
example := C182_peaks (fun j => j) 1000 256 2 5 (-3) 7 (by norm_num) (by norm_num) (by norm_num) (by norm_num) (by norm_num)
  3 10 none

/-- **C182** The ratios of signal, noise and harmonics, and the exceptions for masks outside the spectrum, are the same. -/
theorem C182_ratios (x : ℕ → ℝ) (size nperseg : ℕ) (fs fs' a b : ℝ) (hs : 0 < size) (hn : 0 < nperseg) (hf : 0 < fs)
    (hf' : 0 < fs') (ha : a ≠ 0) (signal noise : List ℤ) (harmonics : Option (List ℤ)) :
    snr (bins size nperseg) (psd (fun j => a * x j + b) size nperseg fs') signal noise =
        snr (bins size nperseg) (psd x size nperseg fs) signal noise ∧
      snrExtended (bins size nperseg) (psd (fun j => a * x j + b) size nperseg fs') signal noise harmonics =
        snrExtended (bins size nperseg) (psd x size nperseg fs) signal noise harmonics := by
  have hc : 0 < a ^ 2 * (fs / fs') := by positivity
  have hp := power_scaled (bins size nperseg) (psd_affine_fs x size nperseg fs fs' a b hs hn hf hf')
  obtain ⟨c, hc'⟩ : ∃ c, c = a ^ 2 * (fs / fs') := ⟨_, rfl⟩
  rw [← hc'] at hc hp
  constructor
  · unfold snr
    rw [hp noise, hp signal]
    cases power (bins size nperseg) (psd x size nperseg fs) noise with
    | error e => rfl
    | ok n =>
      cases power (bins size nperseg) (psd x size nperseg fs) signal with
      | error e => rfl
      | ok s =>
        dsimp only
        rw [mul_div_mul_left _ _ hc.ne']
        simp only [gt_iff_lt, mul_pos_iff_of_pos_left hc]
  · unfold snrExtended
    rw [hp noise, hp signal, hp (harmonics.getD [0])]
    cases power (bins size nperseg) (psd x size nperseg fs) noise with
    | error e => rfl
    | ok n =>
      cases power (bins size nperseg) (psd x size nperseg fs) signal with
      | error e => rfl
      | ok s =>
        cases power (bins size nperseg) (psd x size nperseg fs) (harmonics.getD [0]) with
        | error e => rfl
        | ok h =>
          dsimp only
          rw [← mul_add, ← mul_add, ← mul_add, ← mul_add, mul_div_mul_left _ _ hc.ne', mul_div_mul_left _ _ hc.ne',
            mul_div_mul_left _ _ hc.ne', mul_div_mul_left _ _ hc.ne']

example := C182_ratios (fun j => j) 1000 256 2 5 (-3) 7 (by norm_num) (by norm_num) (by norm_num) (by norm_num) (by norm_num)
  [3, 4, 5] [-1, 7, 500] none

/-- **C182** The rms values follow the gain, and depend neither on the offset nor on the sampling frequency. -/
theorem C182_rms (x : ℕ → ℝ) (size nperseg : ℕ) (fs fs' a b : ℝ) (hs : 0 < size) (hn : 0 < nperseg) (hf : 0 < fs)
    (hf' : 0 < fs') (signal noise : List ℤ) :
    rmsValues (bins size nperseg) (psd (fun j => a * x j + b) size nperseg fs') signal noise fs' =
      (match rmsValues (bins size nperseg) (psd x size nperseg fs) signal noise fs with
        | .error e => .error e
        | .ok r => .ok ⟨|a| * r.noise, |a| * r.signal⟩) := by
  have hp := power_scaled (bins size nperseg) (psd_affine_fs x size nperseg fs fs' a b hs hn hf hf')
  unfold rmsValues
  rw [hp noise, hp signal]
  cases power (bins size nperseg) (psd x size nperseg fs) noise with
  | error e => rfl
  | ok n =>
    cases power (bins size nperseg) (psd x size nperseg fs) signal with
    | error e => rfl
    | ok s =>
      dsimp only
      rw [← Real.sqrt_sq_eq_abs, ← Real.sqrt_mul (sq_nonneg a), ← Real.sqrt_mul (sq_nonneg a)]
      congr 3
      · field_simp
      · field_simp

example := C182_rms (fun j => j) 1000 256 2 5 (-3) 7 (by norm_num) (by norm_num) (by norm_num) (by norm_num) [3, 4, 5]
  [7, 8]

/-- **C182** Only the samples of whole segments count: those behind the last of them, fewer than half a segment, may be
anything. -/
theorem C182_tail (x y : ℕ → ℝ) (size nperseg : ℕ) (fs : ℝ) (hs : 0 < size) (hn : 0 < nperseg) :
    ∃ used, used ≤ size ∧ size < used + (min nperseg size + 1) / 2 ∧
      ((∀ j < used, x j = y j) → ∀ k, psd x size nperseg fs k = psd y size nperseg fs k) := by
  obtain ⟨n, e⟩ : ∃ n, n = min nperseg size := ⟨_, rfl⟩
  have hl : segmentLength size nperseg = n := e.symm
  rw [← e]
  have hn0 : 0 < n := by omega
  have hns : n ≤ size := by omega
  obtain ⟨d, hd⟩ : ∃ d, d = n - n / 2 := ⟨_, rfl⟩
  have hd0 : 0 < d := by omega
  obtain ⟨S, hS⟩ : ∃ S, S = segments size n := ⟨_, rfl⟩
  have hS' : S = (size - n / 2) / d := by rw [hS, hd]; rfl
  have hdm := Nat.div_add_mod (size - n / 2) d
  have hlt := Nat.mod_lt (size - n / 2) hd0
  rw [← hS', mul_comm] at hdm
  refine ⟨S * d + n / 2, by omega, by omega, fun h k => ?_⟩
  unfold psd
  rw [hl]
  dsimp only
  rw [← hS, ← hd]
  congr 1
  refine sum_congr rfl fun s hs' => ?_
  have hx : ∀ j < n, x (s * d + j) = y (s * d + j) := by
    intro j hj
    apply h
    have : (s + 1) * d ≤ S * d := Nat.mul_le_mul_right _ (mem_range.1 hs')
    rw [Nat.succ_mul] at this
    omega
  congr 4
  unfold rfft
  refine sum_congr rfl fun j hj => ?_
  dsimp only
  unfold detrend
  rw [hx j (mem_range.1 hj), sum_congr rfl fun i hi => hx i (mem_range.1 hi)]

/-- 1000 values in segments of 256 -/
example := C182_tail (fun j => j) (fun j => if j < 896 then j else 0) 1000 256 2 (by norm_num) (by norm_num)

end Cbadc.Spectrum
