import Mathlib.Analysis.SpecialFunctions.Complex.Arg
import Verif.Model.AdaptiveResponse
import Verif.Props.Adaptive

/-! # C146: what adaptive filters report about themselves -/

namespace Cbadc.Adaptive
open Finset

/-- The multiple of a cosine that a frequency response `T` makes: the definition of magnitude and phase response. -/
theorem polar_cos (T : ℂ) (a : ℝ) : (Complex.exp (Complex.I * a) * (starRingEnd ℂ) T).re = ‖T‖ * Real.cos (a - T.arg) := by
  conv_lhs => rw [← Complex.norm_mul_exp_arg_mul_I T]
  rw [map_mul, Complex.conj_ofReal, ← Complex.exp_conj, map_mul, Complex.conj_ofReal, Complex.conj_I, mul_left_comm,
    ← Complex.exp_add, show Complex.I * (a : ℂ) + (T.arg : ℂ) * -Complex.I = ((a - T.arg : ℝ) : ℂ) * Complex.I by
      push_cast; ring, Complex.re_ofReal_mul, Complex.exp_ofReal_mul_I_re]

/-- The correlation of a cosine with real taps. -/
theorem correlate_cos (K : ℕ) (h : ℕ → ℝ) (i n : ℕ) (p : ℝ) :
    ∑ k ∈ range K, h k * Real.cos (2 * Real.pi * (i / K) * (n + k : ℕ) + p) =
      ‖rfft K h i‖ * Real.cos (2 * Real.pi * (i / K) * n + p - (rfft K h i).arg) := by
  rw [← polar_cos]
  unfold rfft
  rw [map_sum, Finset.mul_sum, Complex.re_sum]
  refine Finset.sum_congr rfl fun k _ => ?_
  rw [map_mul, Complex.conj_ofReal, ← Complex.exp_conj, mul_left_comm, ← Complex.exp_add]
  have : Complex.I * ((2 * Real.pi * (i / K) * n + p : ℝ) : ℂ) +
      (starRingEnd ℂ) (-2 * Real.pi * Complex.I * (i * k / K)) =
      ((2 * Real.pi * (i / K) * (n + k : ℕ) + p : ℝ) : ℂ) * Complex.I := by
    simp only [map_mul, map_div₀, map_neg, Complex.conj_ofReal, Complex.conj_I, map_natCast, map_ofNat]
    push_cast
    ring
  rw [this, Complex.re_ofReal_mul, Complex.exp_ofReal_mul_I_re]

/-- **C146** (partial: one reference, all `K` points, opposite phase): `transfer_function()` returns the frequencies
`i / K` with `0 ≤ i ≤ K // 2` in cycles per sample, and the prediction from a cosine of that frequency in channel `m`
is the cosine scaled by the magnitude and shifted by minus the angle of the reported value, plus the offset. -/
theorem C146_response_partial (f : Filter ℝ) (hL : f.L = 1) (v : ℕ → ℝ) (hv : f.off = .col v) (hK : 1 ≤ f.K)
    (hM : 1 ≤ f.M) (hne : f.M ≠ f.K ∨ f.K = 1) :
    ∃ R, f.transferFunction 0 = .ok R ∧ R.freqs.length = f.K / 2 + 1 ∧
      ∀ i (hi : i < R.freqs.length), R.freqs[i] = i / f.K ∧ ∀ m < f.M, (R.tf 0 m).length = R.freqs.length ∧
        ∀ (s : A2 ℝ) (p : ℝ), s.c = f.M → f.K ≤ s.r →
          (∀ n m', s.f n m' = if m' = m then Real.cos (2 * Real.pi * R.freqs[i] * n + p) else 0) →
          ∃ z, f.predict s = .ok z ∧ z.c = s.r - f.K ∧ ∀ n < z.c, z.f 0 n =
            ‖(R.tf 0 m).getD i 0‖ * Real.cos (2 * Real.pi * R.freqs[i] * n + p - ((R.tf 0 m).getD i 0).arg) + v 0 := by
  refine ⟨⟨(List.range (f.K / 2 + 1)).map fun (i : ℕ) => (i : ℝ) / f.K,
    fun l m => (List.range (f.K / 2 + 1)).map fun i => rfft f.K (f.h l m) i⟩, ?_, by simp, ?_⟩
  · unfold Filter.transferFunction
    dsimp only
    rw [if_pos rfl, if_neg (by omega), if_neg (by omega), if_neg (by omega), if_pos rfl]
  · intro i hi
    have hi' : i < f.K / 2 + 1 := by simpa using hi
    refine ⟨by simp, fun m hm => ⟨by simp, fun s p hsc hsr hs => ?_⟩⟩
    obtain ⟨z, hz, -, hc, hf⟩ := C44_predict_partial f s hL v hv hsc hsr hne
    refine ⟨z, hz, hc, fun n hn => ?_⟩
    rw [hf n hn]
    have e1 : ((List.range (f.K / 2 + 1)).map fun i => rfft f.K (f.h 0 m) i).getD i 0 = rfft f.K (f.h 0 m) i := by
      rw [List.getD_eq_getElem?_getD, List.getElem?_eq_getElem (by simpa using hi')]
      simp
    dsimp only
    rw [e1]
    simp only [List.getElem_map, List.getElem_range]
    rw [← correlate_cos f.K (f.h 0 m) i n p]
    simp only [star_trivial]
    congr 1
    rw [Finset.sum_eq_single m]
    · refine Finset.sum_congr rfl fun k _ => ?_
      rw [hs, if_pos rfl]
      simp
    · intro m' _ hm'
      refine Finset.sum_eq_zero fun k _ => ?_
      rw [hs, if_neg hm', mul_zero]
    · intro h; exact absurd (Finset.mem_range.2 hm) h

/-- Four taps of which the second is 1. -/
noncomputable abbrev exShift : Filter ℝ :=
  ⟨4, 1, 1, fun _ _ _ => 0, fun _ _ k => if k = 1 then 1 else 0, .col fun _ => 0, fun _ => 0, none⟩

example : ∃ R, exShift.transferFunction 0 = .ok R ∧ R.freqs.length = 3 := by
  obtain ⟨R, h, h2, -⟩ := C146_response_partial exShift rfl (fun _ => 0) rfl (by norm_num) (by norm_num) (by norm_num)
  exact ⟨R, h, h2⟩

theorem shift_rfft : rfft 4 (fun k => if k = 1 then 1 else 0) 1 = -Complex.I := by
  unfold rfft
  rw [Finset.sum_eq_single 1 (by intro b _ hb; simp [hb]) (by simp)]
  rw [show -2 * (Real.pi : ℂ) * Complex.I * (((1 : ℕ) : ℂ) * ((1 : ℕ) : ℂ) / ((4 : ℕ) : ℂ)) =
    -(Real.pi / 2 * Complex.I) by push_cast; ring, Complex.exp_neg, Complex.exp_pi_div_two_mul_I]
  simp

/-- **C146** is false for the phase: with the second of four taps equal to 1 the prediction is the signal one sample
ahead, while the reported phase at a quarter of the sampling rate is that of a delay by one sample. -/
theorem C146_phase_false : ∃ (R : Report) (s z : A2 ℝ) (n : ℕ) (hi : 1 < R.freqs.length),
    exShift.transferFunction 0 = .ok R ∧ R.freqs[1] = 1 / 4 ∧ exShift.predict s = .ok z ∧ n < z.c ∧
      (∀ n m', s.f n m' = if m' = 0 then Real.cos ((2 : ℝ) * Real.pi * R.freqs[1] * n) else 0) ∧
      z.f 0 n ≠ ‖(R.tf 0 0).getD 1 0‖ * Real.cos ((2 : ℝ) * Real.pi * R.freqs[1] * n + ((R.tf 0 0).getD 1 0).arg) := by
  obtain ⟨R, h1, h2, h3⟩ := C146_response_partial exShift rfl (fun _ => 0) rfl (by norm_num) (by norm_num) (by norm_num)
  have hi : 1 < R.freqs.length := by rw [h2]; norm_num
  obtain ⟨hf, h4⟩ := h3 1 hi
  have hf' : R.freqs[1] = 1 / 4 := by rw [hf]; norm_num
  obtain ⟨-, h5⟩ := h4 0 (by norm_num)
  obtain ⟨z, hz, hc, hv⟩ := h5 ⟨6, 1, fun n m' => if m' = 0 then Real.cos ((2 : ℝ) * Real.pi * R.freqs[1] * n) else 0⟩ 0 rfl
    (by norm_num) (by intro n m'; simp)
  have hn : 1 < z.c := by rw [hc]; norm_num
  refine ⟨R, _, z, 1, hi, h1, hf', hz, hn, fun _ _ => rfl, ?_⟩
  have ht : (R.tf 0 0).getD 1 0 = -Complex.I := by
    have : R = ⟨(List.range (4 / 2 + 1)).map fun (i : ℕ) => (i : ℝ) / (4 : ℕ),
        fun l m => (List.range (4 / 2 + 1)).map fun i => rfft 4 (exShift.h l m) i⟩ := by
      unfold Filter.transferFunction at h1
      simp at h1
      rw [← h1]
      simp
    rw [this]
    simp only [List.getD_eq_getElem?_getD]
    rw [List.getElem?_eq_getElem (by simp)]
    simp [shift_rfft]
  rw [hv 1 hn, ht, hf']
  simp only [norm_neg, Complex.norm_I, Complex.arg_neg_I]
  have e1 : (2 : ℝ) * Real.pi * (1 / 4) * ((1 : ℕ) : ℝ) + 0 - -(Real.pi / 2) = Real.pi := by push_cast; ring
  have e2 : (2 : ℝ) * Real.pi * (1 / 4) * ((1 : ℕ) : ℝ) + -(Real.pi / 2) = 0 := by push_cast; ring
  simp only [e1, e2, Real.cos_pi, Real.cos_zero]
  norm_num

/-- **C146** is false for a chosen number of points: unless the numbers of values agree the call raises. -/
theorem C146_points_false (f : Filter ℝ) (points : ℕ) (hL : 1 ≤ f.L) (hM : 1 ≤ f.M) (hK : 2 ≤ f.K)
    (hp : points ≠ 0) (hd : points / 2 ≠ f.K / 2) : f.transferFunction points = .error .valueError := by
  unfold Filter.transferFunction
  simp only [if_neg hp]
  rw [if_neg (by omega), if_neg (by omega), if_neg (by omega), if_neg (by omega)]

example : exShift.transferFunction 1024 = .error .valueError :=
  C146_points_false exShift 1024 (by norm_num) (by norm_num) (by norm_num) (by norm_num) (by norm_num)

/-- **C146** is false for a chosen number of points also where nothing is raised: with one point more than an even
number of taps, the values of `K` points are returned beside the frequencies of `K + 1` points. -/
theorem C146_mismatch_false : ∃ R, (⟨2, 1, 1, fun _ _ _ => 0, fun _ _ _ => 1, .col fun _ => 0, fun _ => 0,
      none⟩ : Filter ℝ).transferFunction 3 = .ok R ∧ R.freqs = [0, 1 / 3] ∧ (R.tf 0 0).getD 1 0 = 0 ∧
      ∑ k ∈ range 2, Complex.exp (-2 * Real.pi * Complex.I * ((1 / 3 : ℝ) * k)) ≠ 0 := by
  refine ⟨_, by unfold Filter.transferFunction; simp; rfl, ?_, ?_, ?_⟩
  · simp [List.range_succ]
  · simp [List.range_succ, rfft, Finset.sum_range_succ]
    rw [show -(2 * (Real.pi : ℂ) * Complex.I * 2⁻¹) = -(Real.pi * Complex.I) by ring, Complex.exp_neg,
      Complex.exp_pi_mul_I]
    norm_num
  · simp only [Finset.sum_range_succ, Finset.sum_range_zero]
    intro hc
    have h1 := congrArg Complex.im hc
    rw [show -2 * (Real.pi : ℂ) * Complex.I * (((1 / 3 : ℝ) : ℂ) * ((1 : ℕ) : ℂ)) =
      ((-(Real.pi - Real.pi / 3) : ℝ) : ℂ) * Complex.I by push_cast; ring] at h1
    simp only [Nat.cast_zero, mul_zero, Complex.exp_zero, zero_add, Complex.add_im, Complex.one_im,
      Complex.exp_ofReal_mul_I_im, Complex.zero_im, Real.sin_neg, Real.sin_pi_sub, Real.sin_pi_div_three] at h1
    have : (0 : ℝ) < √3 := by positivity
    linarith

/-- **C146** (partial: one reference, reversed order): `impulse_response()` returns the taps, a number of points is
rejected, and a unit impulse at sample `p` of channel `m` is answered, above the offset, with tap `p - n` at sample
`n`. -/
theorem C146_impulse_partial (f : Filter ℝ) (hL : f.L = 1) (v : ℕ → ℝ) (hv : f.off = .col v) (hne : f.M ≠ f.K ∨ f.K = 1) :
    (∀ points, points ≠ 0 → f.impulseResponse points = .error .valueError) ∧
    ∃ g, f.impulseResponse 0 = .ok g ∧ ∀ m < f.M, ∀ (s : A2 ℝ) (p : ℕ), s.c = f.M → f.K ≤ s.r →
      (∀ n m', s.f n m' = if m' = m ∧ n = p then 1 else 0) →
      ∃ z, f.predict s = .ok z ∧ z.c = s.r - f.K ∧ ∀ n < z.c, z.f 0 n =
        (if n ≤ p ∧ p < n + f.K then g 0 m (p - n) else 0) + v 0 := by
  refine ⟨fun points hp => by unfold Filter.impulseResponse; rw [if_pos hp], f.h, by
    unfold Filter.impulseResponse; rw [if_neg (by simp)], fun m hm s p hsc hsr hs => ?_⟩
  obtain ⟨z, hz, -, hc, hf⟩ := C44_predict_partial f s hL v hv hsc hsr hne
  refine ⟨z, hz, hc, fun n hn => ?_⟩
  rw [hf n hn]
  simp only [star_trivial]
  congr 1
  rw [Finset.sum_eq_single m]
  · by_cases h : n ≤ p ∧ p < n + f.K
    · rw [if_pos h, Finset.sum_eq_single (p - n)]
      · rw [hs, if_pos ⟨rfl, by omega⟩, mul_one]
      · intro k _ hk
        rw [hs, if_neg (by rintro ⟨-, h2⟩; omega), mul_zero]
      · intro hh; exact absurd (Finset.mem_range.2 (by omega)) hh
    · rw [if_neg h]
      refine Finset.sum_eq_zero fun k hk => ?_
      have := Finset.mem_range.1 hk
      rw [hs, if_neg (by rintro ⟨-, h2⟩; omega), mul_zero]
  · intro m' _ hm'
    refine Finset.sum_eq_zero fun k _ => ?_
    rw [hs, if_neg (by rintro ⟨h2, -⟩; exact hm' h2), mul_zero]
  · intro h; exact absurd (Finset.mem_range.2 hm) h

/-- **C146** is false for the order of the impulse response: an impulse at the last sample of the first window is
answered with the taps from the last to the first. -/
theorem C146_impulse_false : ∃ (g : ℕ → ℕ → ℕ → ℝ) (s z : A2 ℝ), exShift.impulseResponse 0 = .ok g ∧
    (∀ n m', s.f n m' = if m' = 0 ∧ n = 3 then 1 else 0) ∧ exShift.predict s = .ok z ∧ 4 ≤ z.c ∧
      z.f 0 1 ≠ g 0 0 1 ∧ ∀ n < 4, z.f 0 n = g 0 0 (3 - n) := by
  obtain ⟨-, g, hg, h⟩ := C146_impulse_partial exShift rfl (fun _ => 0) rfl (by norm_num)
  obtain ⟨z, hz, hc, hf⟩ := h 0 (by norm_num) ⟨8, 1, fun n m' => if m' = 0 ∧ n = 3 then 1 else 0⟩ 3 rfl (by norm_num)
    (fun _ _ => rfl)
  have hc' : z.c = 4 := by rw [hc]; norm_num
  have hg' : g = exShift.h := by
    unfold Filter.impulseResponse at hg
    rw [if_neg (by simp)] at hg
    exact (Except.ok.inj hg).symm
  refine ⟨g, _, z, hg, fun _ _ => rfl, hz, by omega, ?_, fun n hn => ?_⟩
  · rw [hf 1 (by omega), hg']
    simp
  · rw [hf n (by omega), if_pos ⟨by omega, by dsimp only; omega⟩]
    simp

/-- **C146** (partial: quotient of spectra) For a recursive filter the report has `points` values (as many as taps by default)
at the angles `pi i / points`, and each value is the quotient of the spectra of the taps of channel `m` and of the feedback
taps. -/
theorem C146_recursive_partial (f : Filter ℝ) (points : ℕ) :
    ∃ n : ℕ, n = (if points = 0 then f.K else points) ∧ (f.iirTransferFunction points).freqs.length = n ∧
      ∀ i < n, (f.iirTransferFunction points).freqs[i]? = some (Real.pi * i / n) ∧ ∀ l m,
        ((f.iirTransferFunction points).tf l m)[i]? = some
          ((∑ k ∈ Finset.range f.K, (f.h l m k : ℂ) * Complex.exp (-(Complex.I * ((Real.pi * i / n : ℝ) : ℂ) * k))) /
            ∑ k ∈ Finset.range f.K, (f.h l (f.M - 1) k : ℂ) * Complex.exp (-(Complex.I * ((Real.pi * i / n : ℝ) : ℂ) * k))) := by
  refine ⟨_, rfl, by simp [Filter.iirTransferFunction], fun i hi => ⟨by simp [Filter.iirTransferFunction, hi], fun l m => ?_⟩⟩
  have key : ∀ (c : ℕ → ℝ) (w : ℝ), polyval f.K c (Complex.exp (Complex.I * w)) =
      Complex.exp (Complex.I * w) ^ (f.K - 1) * ∑ k ∈ Finset.range f.K, (c k : ℂ) * Complex.exp (-(Complex.I * w * k)) := by
    intro c w
    rw [Finset.mul_sum]
    refine Finset.sum_congr rfl fun k hk => ?_
    have hk' := Finset.mem_range.1 hk
    rw [mul_left_comm, ← Complex.exp_nat_mul, ← Complex.exp_nat_mul, ← Complex.exp_add, Nat.cast_sub (by omega)]
    congr 2
    ring
  generalize hn : (if points = 0 then f.K else points) = n at hi ⊢
  simp only [Filter.iirTransferFunction, hn, List.getElem?_map, List.getElem?_range hi, Option.map_some, Option.some.injEq]
  have e : (Real.pi : ℂ) * i / n = ((Real.pi * i / n : ℝ) : ℂ) := by push_cast; rfl
  rw [e, key, key, mul_div_mul_left _ _ (pow_ne_zero _ (Complex.exp_ne_zero _))]

/-- C146_recursive_partial: two forward taps and two feedback taps at the default number of points -/
example : (Filter.iirTransferFunction ⟨2, 1, 2, fun _ _ _ => 0, fun _ m k => if m = 0 then (if k = 0 then 1 else 3) else (if k = 0 then 1 else 1 / 2),
    .col fun _ => 0, fun _ => 0, none⟩ 0).tf 0 0 = [8 / 3, (1 - 3 * Complex.I) / (1 - 1 / 2 * Complex.I)] := by
  obtain ⟨n, hn, -, h⟩ := C146_recursive_partial ⟨2, 1, 2, fun _ _ _ => 0,
    fun _ m k => if m = 0 then (if k = 0 then 1 else 3) else (if k = 0 then 1 else 1 / 2), .col fun _ => 0, fun _ => 0, none⟩ 0
  obtain rfl : n = 2 := hn
  have h0 := (h 0 (by norm_num)).2 0 0
  have h1 := (h 1 (by norm_num)).2 0 0
  have hI : Complex.exp (-(Complex.I * ((Real.pi : ℂ) / 2))) = -Complex.I := by
    rw [Complex.exp_neg, mul_comm, Complex.exp_pi_div_two_mul_I, Complex.inv_I]
  refine List.ext_getElem? fun i => ?_
  rcases i with _ | _ | i
  · rw [h0]
    simp [Finset.sum_range_succ]
    norm_num
  · rw [h1]
    simp [Finset.sum_range_succ, hI]
    ring_nf
  · simp [Filter.iirTransferFunction]

/-- **C146** is false for recursive filters: a reported value `G` at `w` radians per sample is not the steady answer
`G exp(i w n)` to `exp(i w n)`.  One forward tap 1 and the feedback 1/2, at a quarter of the sampling rate: reported is
2, and the difference equation (C67) has no such solution. -/
theorem C146_recursive_false : ∃ (f : Filter ℝ) (R : Report) (hi : 1 < R.freqs.length),
    f.K = 1 ∧ f.M = 2 ∧ f.L = 1 ∧ R = f.iirTransferFunction 2 ∧ R.freqs[1] = Real.pi / 2 ∧
      let G := (R.tf 0 0).getD 1 0
      let e := fun n : ℤ => Complex.exp (Complex.I * R.freqs[1] * n)
      G = 2 ∧ ∀ n : ℤ, G * e n ≠ (f.h 0 0 0 : ℂ) * e n + (f.h 0 1 0 : ℂ) * (G * e (n - 1)) := by
  refine ⟨⟨1, 1, 2, fun _ _ _ => 0, fun _ m _ => if m = 0 then 1 else 1 / 2, .col fun _ => 0, fun _ => 0, none⟩, _,
    by simp [Filter.iirTransferFunction], rfl, rfl, rfl, rfl, by simp [Filter.iirTransferFunction], ?_⟩
  have hG : (((Filter.iirTransferFunction ⟨1, 1, 2, fun _ _ _ => 0, fun _ m _ => if m = 0 then 1 else 1 / 2,
      .col fun _ => 0, fun _ => 0, none⟩ 2).tf 0 0).getD 1 0) = 2 := by
    simp [Filter.iirTransferFunction, List.range_succ, polyval]
  refine ⟨hG, fun n hc => ?_⟩
  rw [hG] at hc
  have hw : (Filter.iirTransferFunction ⟨1, 1, 2, fun _ _ _ => 0, fun _ m _ => if m = 0 then 1 else 1 / 2,
      .col fun _ => 0, fun _ => 0, none⟩ 2).freqs[1]'(by simp [Filter.iirTransferFunction]) = Real.pi / 2 := by
    simp [Filter.iirTransferFunction]
  rw [hw] at hc
  beta_reduce at hc
  rw [show Complex.I * ((Real.pi / 2 : ℝ) : ℂ) * ((n - 1 : ℤ) : ℂ) =
    Complex.I * ((Real.pi / 2 : ℝ) : ℂ) * (n : ℂ) - Real.pi / 2 * Complex.I by push_cast; ring,
    Complex.exp_sub, Complex.exp_pi_div_two_mul_I] at hc
  have h0 := Complex.exp_ne_zero (Complex.I * ((Real.pi / 2 : ℝ) : ℂ) * (n : ℂ))
  generalize Complex.exp (Complex.I * ((Real.pi / 2 : ℝ) : ℂ) * (n : ℂ)) = x at hc h0
  have h1 : x * (1 + Complex.I) = 0 := by
    have hI : Complex.I ≠ 0 := Complex.I_ne_zero
    simp at hc
    linear_combination hc
  rcases mul_eq_zero.1 h1 with h | h
  · exact h0 h
  · have := congrArg Complex.re h
    simp at this

/-- `C146_impulse_partial`: four taps of which the second is 1; a single sample 1 at position 3 of six. -/
example : ∃ g, exShift.impulseResponse 0 = .ok g ∧
    ∃ z, exShift.predict ⟨6, 1, fun n m => if m = 0 ∧ n = 3 then 1 else 0⟩ = .ok z ∧ z.c = 2 := by
  obtain ⟨-, g, hg, h⟩ := C146_impulse_partial exShift rfl (fun _ => 0) rfl (.inl (by decide))
  obtain ⟨z, hz, hc, -⟩ := h 0 Nat.one_pos ⟨6, 1, fun n m => if m = 0 ∧ n = 3 then 1 else 0⟩ 3 rfl (by decide) fun _ _ => rfl
  exact ⟨g, hg, z, hz, hc⟩


end Cbadc.Adaptive
