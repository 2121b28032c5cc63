import Mathlib.RingTheory.RootsOfUnity.Complex
import Mathlib.Algebra.BigOperators.Field
import Mathlib.Tactic.Ring
import Mathlib.Tactic.FieldSimp
import Mathlib.Tactic.NormNum
import Mathlib.Tactic.Linarith
import Mathlib.Tactic.IntervalCases
import Verif.Model.Decimation
import Verif.Spec.Decimation

/-!
# C110, C111: demodulation and decimation
-/

namespace Cbadc.Decimation
open Finset Complex Spec

/-- The spectrum of a sequence multiplied by a rotating phase. -/
theorem spectrum_rot (n : ℕ) (x : ℕ → ℂ) (Ω ω : ℝ) :
    dtft n (fun k => x k * exp (-I * Ω * k)) ω = dtft n x (ω + Ω) := by
  unfold dtft
  refine sum_congr rfl fun k _ => ?_
  rw [mul_assoc, ← exp_add]
  congr 2
  push_cast
  ring

theorem norm_rot (z : ℂ) (Ω : ℝ) (k : ℕ) : ‖z * exp (-I * Ω * k)‖ = ‖z‖ := by
  rw [norm_mul]
  have : (-I * Ω * k : ℂ) = ((-(Ω * k) : ℝ) : ℂ) * I := by push_cast; ring
  rw [this, norm_exp_ofReal_mul_I, mul_one]

theorem rot_back (z : ℂ) (Ω : ℝ) (k : ℕ) : z * exp (-I * Ω * k) * exp (-I * (-Ω : ℝ) * k) = z := by
  rw [mul_assoc, ← exp_add]
  have : (-I * Ω * k + -I * (-Ω : ℝ) * k : ℂ) = 0 := by push_cast; ring
  rw [this, exp_zero, mul_one]

/-- **C110** demodulating a one-dimensional signal moves its spectrum down by `Omega`, changes no magnitude and
is undone by `-Omega`. -/
theorem C110_signal (n : ℕ) (x : ℕ → ℂ) (Ω : ℝ) (axis : ℤ) (ha : axis = 0 ∨ axis = -1) :
    ∃ y, demodulate (.d1 n x) Ω axis = .ok (.d1 n y) ∧
      (∀ ω, dtft n y ω = dtft n x (ω + Ω)) ∧ (∀ k, ‖y k‖ = ‖x k‖) ∧
      demodulate (.d1 n y) (-Ω) axis = .ok (.d1 n x) := by
  have key : ∀ (z : ℕ → ℂ) (W : ℝ), demodulate (.d1 n z) W axis = .ok (.d1 n fun k => z k * exp (-I * W * k)) := by
    intro z W
    unfold demodulate Arr.shapeAt
    simp only [if_pos ha]
    show Arr.mulLast (.d1 n z) n _ = _
    simp only [Arr.mulLast, if_true]
  refine ⟨fun k => x k * exp (-I * Ω * k), key x Ω, fun ω => spectrum_rot n x Ω ω, fun k => norm_rot _ _ _, ?_⟩
  rw [key]
  simp only [rot_back]

/-- **C110** the same for every row of a two-dimensional signal when its last axis is the time axis. -/
theorem C110_rows (r c : ℕ) (x : ℕ → ℕ → ℂ) (Ω : ℝ) (axis : ℤ) (ha : axis = 1 ∨ axis = -1) :
    ∃ y, demodulate (.d2 r c x) Ω axis = .ok (.d2 r c y) ∧
      (∀ i ω, dtft c (y i) ω = dtft c (x i) (ω + Ω)) ∧ (∀ i k, ‖y i k‖ = ‖x i k‖) ∧
      demodulate (.d2 r c y) (-Ω) axis = .ok (.d2 r c x) := by
  have h0 : ¬(axis = 0 ∨ axis = -2) := by omega
  have key : ∀ (z : ℕ → ℕ → ℂ) (W : ℝ),
      demodulate (.d2 r c z) W axis = .ok (.d2 r c fun i k => z i k * exp (-I * W * k)) := by
    intro z W
    unfold demodulate Arr.shapeAt
    simp only [if_pos ha, if_neg h0]
    show Arr.mulLast (.d2 r c z) c _ = _
    simp only [Arr.mulLast, if_true]
  refine ⟨fun i k => x i k * exp (-I * Ω * k), key x Ω, fun i ω => spectrum_rot c (x i) Ω ω,
    fun i k => norm_rot _ _ _, ?_⟩
  rw [key]
  simp only [rot_back]

theorem demodulate_columns (r c : ℕ) (x : ℕ → ℕ → ℂ) (Ω : ℝ) :
    demodulate (.d2 r c x) Ω = Arr.mulLast (.d2 r c x) r fun k => exp (-I * Ω * k) := by
  unfold demodulate Arr.shapeAt
  simp only [true_or, if_true]
  rfl

/-- **C110 is false for the default axis of a two-dimensional signal** (time along the first axis, one column
per channel, as the estimators deliver it): with more than one sample, several channels raise `ValueError`
unless there are as many channels as samples; then the columns are not demodulated; a single channel comes back
as a square array. -/
theorem C110_columns_false :
    (∀ (r c : ℕ) (x : ℕ → ℕ → ℂ) (Ω : ℝ), r ≠ 1 → c ≠ 1 → c ≠ r →
      demodulate (.d2 r c x) Ω = .error .valueError) ∧
    (∀ (r : ℕ) (x : ℕ → ℕ → ℂ) (Ω : ℝ), r ≠ 1 → ∃ y, demodulate (.d2 r 1 x) Ω = .ok (.d2 r r y)) ∧
    (∃ (x : ℕ → ℕ → ℂ) (Ω : ℝ) (y : ℕ → ℕ → ℂ), demodulate (.d2 2 2 x) Ω = .ok (.d2 2 2 y) ∧
      ∃ ω, dtft 2 (fun i => y i 0) ω ≠ dtft 2 (fun i => x i 0) (ω + Ω)) := by
  refine ⟨?_, ?_, ?_⟩
  · intro r c x Ω h1 h2 h3
    rw [demodulate_columns]
    simp only [Arr.mulLast, if_neg h1, if_neg h2, if_neg h3]
  · intro r x Ω h1
    rw [demodulate_columns]
    refine ⟨fun i k => x i 0 * exp (-I * Ω * k), ?_⟩
    have h2 : ¬(1 = r) := fun h => h1 h.symm
    simp only [Arr.mulLast, if_neg h1, if_neg h2, if_true]
  · refine ⟨fun _ _ => 1, Real.pi, fun _ k => 1 * exp (-I * Real.pi * k), ?_, 0, ?_⟩
    · rw [demodulate_columns]
      simp only [Arr.mulLast, if_true]
    · have e1 : exp (-(I * (Real.pi : ℂ))) = -1 := by
        rw [exp_neg, mul_comm, exp_pi_mul_I]; norm_num
      simp [dtft, sum_range_succ, e1]

/-- `C110_signal`, `C110_rows`: A non-trivial case of C110: an oscillation of a quarter turn per sample becomes constant. -/
example : demodulate (.d1 3 fun k => exp (I * (Real.pi / 2 : ℝ) * k)) (Real.pi / 2) =
    .ok (.d1 3 fun k => exp (I * (Real.pi / 2 : ℝ) * k) * exp (-I * (Real.pi / 2 : ℝ) * k)) ∧
    ∀ k : ℕ, exp (I * (Real.pi / 2 : ℝ) * k) * exp (-I * (Real.pi / 2 : ℝ) * k) = 1 := by
  refine ⟨rfl, fun k => ?_⟩
  rw [← exp_add]
  have : (I * (Real.pi / 2 : ℝ) * k + -I * (Real.pi / 2 : ℝ) * k : ℂ) = 0 := by ring
  rw [this, exp_zero]

/-! ## Decimation -/

theorem exp_int (m : ℤ) : exp (2 * Real.pi * I * m) = 1 := by
  rw [mul_comm]
  exact exp_int_mul_two_pi_mul_I m

/-- Orthogonality of the harmonics. -/
theorem orth (n : ℕ) (hn : 0 < n) (m : ℤ) :
    ∑ j ∈ range n, exp (2 * Real.pi * I * m * j / n) = if (n : ℤ) ∣ m then (n : ℂ) else 0 := by
  have hn' : (n : ℂ) ≠ 0 := by exact_mod_cast hn.ne'
  have pow : ∀ j : ℕ, exp (2 * Real.pi * I * m * j / n) = exp (2 * Real.pi * I * m / n) ^ j := by
    intro j
    rw [← exp_nat_mul]
    congr 1
    ring
  simp only [pow]
  by_cases h : (n : ℤ) ∣ m
  · rw [if_pos h]
    obtain ⟨q, rfl⟩ := h
    have : exp (2 * Real.pi * I * ((n * q : ℤ) : ℂ) / n) = 1 := by
      rw [← exp_int q]
      congr 1
      push_cast
      field_simp
    rw [this]
    simp
  · rw [if_neg h]
    have h1 : exp (2 * Real.pi * I * m / n) ≠ 1 := by
      intro hc
      rw [exp_eq_one_iff] at hc
      obtain ⟨q, hq⟩ := hc
      apply h
      refine ⟨q, ?_⟩
      have : (m : ℂ) = n * q := by
        field_simp at hq
        exact hq
      exact_mod_cast this
    rw [geom_sum_eq h1, ← pow]
    have : exp (2 * Real.pi * I * m * n / n) = 1 := by
      rw [mul_div_assoc, div_self hn', mul_one, exp_int]
    rw [this, sub_self, zero_div]

/-- The coefficient of the harmonic `k` of a signal whose harmonics are `|k| ≤ B`. -/
noncomputable def coef (B : ℕ) (c : ℤ → ℂ) (k : ℤ) : ℂ := if |k| ≤ B then c k else 0

theorem fft_periodic (n B : ℕ) (hn : 0 < n) (c : ℤ → ℂ) (x : ℕ → ℂ)
    (hx : ∀ j < n, x j = periodic B c n j) (b : ℕ) (k0 : ℤ) (hk : (n : ℤ) ∣ k0 - b)
    (hr : ∀ k : ℤ, |k| ≤ B → k ≠ k0 → ¬(n : ℤ) ∣ k - b) :
    fft n x b = n * coef B c k0 := by
  have h1 : fft n x b = ∑ k ∈ Icc (-(B : ℤ)) B, c k *
      ∑ j ∈ range n, exp (2 * Real.pi * I * ((k - b : ℤ) : ℂ) * j / n) := by
    unfold fft
    simp only [mul_sum]
    rw [sum_comm]
    refine sum_congr rfl fun j hj => ?_
    rw [hx j (mem_range.mp hj)]
    unfold periodic
    rw [sum_mul]
    refine sum_congr rfl fun k _ => ?_
    rw [mul_assoc, ← exp_add]
    congr 2
    push_cast
    ring
  rw [h1]
  simp only [orth n hn]
  by_cases hb : |k0| ≤ B
  · rw [sum_eq_single_of_mem k0 (by rw [mem_Icc]; exact abs_le.mp hb)]
    · rw [if_pos hk]
      unfold coef
      rw [if_pos hb]
      ring
    · intro k hk' hne
      rw [if_neg (hr k (abs_le.mpr (mem_Icc.mp hk')) hne), mul_zero]
  · unfold coef
    rw [if_neg hb, mul_zero]
    refine sum_eq_zero fun k hk' => ?_
    have hk'' := abs_le.mpr (mem_Icc.mp hk')
    rw [if_neg (hr k hk'' (fun h => hb (h ▸ hk''))), mul_zero]

theorem not_dvd_small (n : ℕ) (m : ℤ) (h0 : m ≠ 0) (h1 : -(n : ℤ) < m) (h2 : m < n) : ¬(n : ℤ) ∣ m := by
  intro h
  exact h0 (Int.eq_zero_of_abs_lt_dvd h (abs_lt.mpr ⟨h1, h2⟩))

/-- The signed frequency of bin `b` of `num` bins. -/
def signed (num b : ℕ) : ℤ := if b ≤ num / 2 then b else b - num

theorem keep_periodic (n num B : ℕ) (hnum : 0 < num) (hle : num ≤ n) (hB : 2 * B < n) (c : ℤ → ℂ) (x : ℕ → ℂ)
    (hx : ∀ j < n, x j = periodic B c n j) (hny : ∀ k : ℤ, 2 * |k| = num → c k = 0) (b : ℕ) (hb : b < num) :
    keep n num (fft n x) b = n * coef B c (signed num b) := by
  have hn : 0 < n := by omega
  have front : ∀ b : ℕ, b ≤ num / 2 → fft n x b = n * coef B c b := by
    intro b hb
    refine fft_periodic n B hn c x hx b b (by simp) fun k hk hne => ?_
    have := abs_le.mp hk
    exact not_dvd_small n _ (by omega) (by omega) (by omega)
  have back : ∀ b : ℕ, b < num → num ≤ 2 * b → fft n x (n - num + b) = n * coef B c (b - num) := by
    intro b hb hb2
    have e : ((n - num + b : ℕ) : ℤ) = (b : ℤ) - num + n := by omega
    refine fft_periodic n B hn c x hx _ _ (by rw [e]; exact ⟨-1, by ring⟩) fun k hk hne => ?_
    have := abs_le.mp hk
    rw [e]
    intro hd
    have hd' : (n : ℤ) ∣ k - (b - num) := by
      have := dvd_add hd (dvd_refl (n : ℤ))
      have e2 : k - ((b : ℤ) - num + n) + n = k - (b - num) := by ring
      rwa [e2] at this
    exact not_dvd_small n _ (by omega) (by omega) (by omega) hd'
  unfold keep
  by_cases h1 : num % 2 = 0 ∧ b = num / 2 ∧ num < n
  · rw [if_pos h1]
    obtain ⟨h2, h3, h4⟩ := h1
    have z : ∀ k : ℤ, 2 * |k| = num → coef B c k = 0 := by
      intro k hk
      unfold coef
      rw [hny k hk]
      exact ite_self 0
    have e : n - num / 2 = n - num + b := by omega
    rw [e, front b (by omega), back b hb (by omega)]
    have e1 : 2 * |(b : ℤ)| = num := by rw [abs_of_nonneg (by omega)]; omega
    have e2 : 2 * |(b : ℤ) - num| = num := by rw [abs_of_nonpos (by omega)]; omega
    unfold signed
    rw [z _ e2, if_pos (by omega)]
    ring
  · rw [if_neg h1]
    unfold signed
    by_cases h2 : b ≤ num / 2
    · rw [if_pos h2, if_pos h2, front b h2]
    · rw [if_neg h2, if_neg h2, back b hb (by omega)]

theorem sum_signed (num : ℕ) (hnum : 0 < num) (f : ℤ → ℂ) (hny : ∀ k : ℤ, 2 * |k| = num → f k = 0) :
    ∑ b ∈ range num, f (signed num b) = ∑ k ∈ Icc (-(((num - 1) / 2 : ℕ) : ℤ)) ((num - 1) / 2 : ℕ), f k := by
  refine sum_bij_ne_zero (fun b _ _ => signed num b) ?_ ?_ ?_ ?_
  · intro b hb hne
    have hb := mem_range.mp hb
    have : ¬ 2 * |signed num b| = num := fun h => hne (hny _ h)
    rw [mem_Icc]
    unfold signed at *
    by_cases h : b ≤ num / 2
    · rw [if_pos h] at *
      rw [abs_of_nonneg (by omega)] at this
      omega
    · rw [if_neg h] at *
      omega
  · intro b hb _ b' hb' _ h
    have hb := mem_range.mp hb
    have hb' := mem_range.mp hb'
    unfold signed at h
    split at h <;> split at h <;> omega
  · intro k hk hne
    rw [mem_Icc] at hk
    by_cases h : 0 ≤ k
    · refine ⟨k.toNat, ?_, ?_, ?_⟩
      · rw [mem_range]; omega
      · have : signed num k.toNat = k := by unfold signed; rw [if_pos (by omega)]; omega
        rwa [this]
      · unfold signed; rw [if_pos (by omega)]; omega
    · refine ⟨(k + num).toNat, ?_, ?_, ?_⟩
      · rw [mem_range]; omega
      · have : signed num (k + num).toNat = k := by unfold signed; rw [if_neg (by omega)]; omega
        rwa [this]
      · unfold signed; rw [if_neg (by omega)]; omega
  · intro b _ _
    rfl

/-- **C111 (part that holds)** decimating a periodic signal without a component exactly at half the new rate:
the components above half the new rate are removed and the others are sampled on an even grid of `len // DSR`
points over the whole signal. -/
theorem C111_partial (n DSR B : ℕ) (c : ℤ → ℂ) (x : ℕ → ℂ) (hD : 0 < DSR) (hn : DSR ≤ n) (hB : 2 * B < n)
    (hx : ∀ j < n, x j = periodic B c n j) (hny : ∀ k : ℤ, 2 * |k| = (n / DSR : ℕ) → c k = 0) :
    ∃ y, decimate n x DSR = .ok (n / DSR, y) ∧
      ∀ j, y j = periodic (min B ((n / DSR - 1) / 2)) c n (j * (n / (n / DSR : ℕ))) := by
  have hnum : 0 < n / DSR := Nat.div_pos hn hD
  have hle : n / DSR ≤ n := Nat.div_le_self n DSR
  unfold decimate resample
  rw [if_neg (by omega), if_neg (by omega)]
  refine ⟨_, rfl, fun j => ?_⟩
  generalize n / DSR = num at *
  have hn0 : (n : ℂ) ≠ 0 := by have : n ≠ 0 := by omega
                               exact_mod_cast this
  have hnum0 : (num : ℂ) ≠ 0 := by exact_mod_cast hnum.ne'
  have hexp : ∀ b < num, exp (2 * Real.pi * I * b * j / num) =
      exp (2 * Real.pi * I * (signed num b : ℤ) * j / num) := by
    intro b _
    unfold signed
    by_cases h : b ≤ num / 2
    · rw [if_pos h]
      congr 1
    · rw [if_neg h]
      have : (2 * Real.pi * I * b * j / num : ℂ) =
          2 * Real.pi * I * ((b - num : ℤ) : ℂ) * j / num + 2 * Real.pi * I * (j : ℤ) := by
        push_cast
        field_simp
        ring
      rw [this, exp_add, exp_int, mul_one]
  have h1 : ifft num (keep n num (fft n x)) j * (num / n) =
      ∑ b ∈ range num, coef B c (signed num b) * exp (2 * Real.pi * I * (signed num b : ℤ) * j / num) := by
    unfold ifft
    rw [div_mul_div_comm, mul_comm (num : ℂ) n, mul_div_mul_right _ _ hnum0, sum_div]
    refine sum_congr rfl fun b hb => ?_
    have hb := mem_range.mp hb
    rw [keep_periodic n num B hnum hle hB c x hx hny b hb, hexp b hb]
    field_simp
  rw [h1, sum_signed num hnum (fun k => coef B c k * exp (2 * Real.pi * I * (k : ℤ) * j / num))]
  · unfold periodic
    symm
    refine Eq.trans ?_ (sum_subset (s₁ := Icc (-((min B ((num - 1) / 2) : ℕ) : ℤ)) (min B ((num - 1) / 2) : ℕ)) ?_ ?_)
    · refine sum_congr rfl fun k hk => ?_
      rw [mem_Icc] at hk
      have : |k| ≤ B := by rw [abs_le]; omega
      unfold coef
      rw [if_pos this]
      congr 2
      push_cast
      field_simp
    · intro k hk
      rw [mem_Icc] at *
      omega
    · intro k hk hk2
      rw [mem_Icc] at *
      have : ¬ |k| ≤ B := by rw [abs_le]; omega
      unfold coef
      rw [if_neg this, zero_mul]
  · intro k hk
    unfold coef
    rw [hny k hk, ite_self, zero_mul]

/-- **C111 (part that holds)** when the decimation factor divides the length and the signal lies below half the
new rate, decimating is keeping every `DSR`-th sample. -/
theorem C111_samples_partial (n DSR B : ℕ) (c : ℤ → ℂ) (x : ℕ → ℂ) (hD : 0 < DSR) (hn : DSR ≤ n)
    (hd : DSR ∣ n) (hB : 2 * B < n / DSR) (hx : ∀ j < n, x j = periodic B c n j) :
    ∃ y, decimate n x DSR = .ok (n / DSR, y) ∧ ∀ j < n / DSR, y j = x (j * DSR) := by
  have hle : n / DSR ≤ n := Nat.div_le_self n DSR
  have hnum : 0 < n / DSR := Nat.div_pos hn hD
  obtain ⟨y, h1, h2⟩ := C111_partial n DSR B (coef B c) x hD hn (by omega)
    (fun j hj => by
      rw [hx j hj]
      unfold periodic
      refine sum_congr rfl fun k hk => ?_
      unfold coef
      rw [if_pos (abs_le.mpr (mem_Icc.mp hk))])
    (fun k hk => by unfold coef; rw [if_neg (by omega)])
  refine ⟨y, h1, fun j hj => ?_⟩
  obtain ⟨q, hq⟩ := hd
  have hq2 : n / DSR = q := by rw [hq, Nat.mul_div_cancel_left _ hD]
  rw [h2 j, hx (j * DSR) (by rw [hq2] at hj; rw [hq, mul_comm]; exact Nat.mul_lt_mul_of_pos_left hj hD)]
  have hm : min B ((n / DSR - 1) / 2) = B := by omega
  rw [hm]
  have hq0 : (q : ℝ) ≠ 0 := by have : q ≠ 0 := by omega
                               exact_mod_cast this
  have e : (j : ℝ) * (n / (n / DSR : ℕ)) = (j * DSR : ℕ) := by
    rw [hq2, hq]
    push_cast
    field_simp
  rw [e]
  unfold periodic
  refine sum_congr rfl fun k hk => ?_
  unfold coef
  rw [if_pos (abs_le.mpr (mem_Icc.mp hk))]

/-- **C111** what is refused: a decimation factor zero, and a signal shorter than the decimation factor. -/
theorem C111_refused (n DSR : ℕ) (x : ℕ → ℂ) :
    (DSR = 0 → decimate n x DSR = .error .zeroDivision) ∧
    (n < DSR → decimate n x DSR = .error .valueError) := by
  constructor
  · intro h
    unfold decimate
    rw [if_pos h]
  · intro h
    unfold decimate resample
    rw [if_neg (by omega), if_pos (Nat.div_eq_of_lt h)]

/-- **C111 is false when the decimation factor does not divide the length**: ten samples of one turn of an
oscillation decimated by three give three samples, the second of which is not the fourth sample of the signal:
the samples are `10 / 3` apart instead of `3`. -/
theorem C111_false : ∃ y, decimate 10 (fun j => exp (2 * Real.pi * I * j / 10)) 3 = .ok (3, y) ∧
    y 1 ≠ exp (2 * Real.pi * I * (3 : ℕ) / 10) := by
  have hp : ∀ t : ℝ, periodic 1 (fun k => if k = 1 then 1 else 0) 10 t = exp (2 * Real.pi * I * t / 10) := by
    intro t
    unfold periodic
    rw [sum_eq_single_of_mem (1 : ℤ) (by rw [mem_Icc]; norm_num)]
    · simp
    · intro k _ hk
      simp only [if_neg hk, zero_mul]
  obtain ⟨y, h1, h2⟩ := C111_partial 10 3 1 (fun k => if k = 1 then 1 else 0)
    (fun j => exp (2 * Real.pi * I * j / 10)) (by norm_num) (by norm_num) (by norm_num)
    (fun j _ => by
      have := (hp j).symm
      push_cast at this ⊢
      exact this)
    (fun k hk => by
      have : ¬ k = 1 := by
        intro h
        rw [h] at hk
        norm_num at hk
      simp only [if_neg this])
  refine ⟨y, h1, ?_⟩
  have h3 := h2 1
  have hm : min 1 ((10 / 3 - 1) / 2) = 1 := by norm_num
  rw [hm] at h3
  have hp' := hp ((1 : ℕ) * ((10 : ℕ) / (10 / 3 : ℕ)))
  push_cast at h3 hp'
  rw [h3]
  intro h
  rw [hp', exp_eq_exp_iff_exists_int] at h
  obtain ⟨q, hq⟩ := h
  have hpi : (2 * Real.pi * I : ℂ) ≠ 0 := by
    simp [Real.pi_ne_zero, I_ne_zero]
  have h4 : (1 : ℂ) = 30 * q := by
    apply mul_left_cancel₀ hpi
    norm_num at hq
    linear_combination 30 * hq
  have h5 : (1 : ℤ) = 30 * q := by exact_mod_cast h4
  omega

/-- `C111_partial`: A non-trivial case of `C111_samples_partial`: twelve samples of one turn of an oscillation plus a constant,
decimated by four. -/
example : ∃ y, decimate 12 (fun j => periodic 1 (fun k => if k = 1 then 2 else if k = 0 then 3 else 0) 12 j) 4 =
    .ok (3, y) ∧ ∀ j < 3, y j =
      periodic 1 (fun k => if k = 1 then 2 else if k = 0 then 3 else 0) 12 ((j * 4 : ℕ) : ℝ) :=
  C111_samples_partial 12 4 1 (fun k => if k = 1 then 2 else if k = 0 then 3 else 0) _ (by norm_num)
    (by norm_num) (by norm_num) (by norm_num) (fun j _ => by norm_num)

end Cbadc.Decimation
