import Mathlib.Analysis.Convex.SpecificFunctions.Deriv
import Mathlib.Analysis.SpecialFunctions.Trigonometric.Bounds
import Mathlib.Algebra.BigOperators.Intervals
import Verif.Lemmas.LeapFactor

/-! # Chebyshev polynomials of the second kind within and beyond the band -/

namespace Cbadc.Synthesis
open Finset
open Polynomial.Chebyshev (U)

theorem sinc_le (x y : ℝ) (hy : 0 < y) (hy2 : y ≤ Real.pi / 2) (hyx : y ≤ x) :
    Real.sin x ^ 2 * y ^ 2 ≤ Real.sin y ^ 2 * x ^ 2 := by
  have hπ := Real.pi_pos
  have hx : 0 < x := lt_of_lt_of_le hy hyx
  have hsy : 0 ≤ Real.sin y := Real.sin_nonneg_of_nonneg_of_le_pi hy.le (by linarith)
  have key : |Real.sin x| * y ≤ Real.sin y * x := by
    by_cases h : x ≤ Real.pi
    · have hsx : 0 ≤ Real.sin x := Real.sin_nonneg_of_nonneg_of_le_pi hx.le h
      rw [abs_of_nonneg hsx]
      have m0 : (0 : ℝ) ∈ Set.Icc 0 Real.pi := ⟨le_rfl, hπ.le⟩
      have mx : x ∈ Set.Icc 0 Real.pi := ⟨hx.le, h⟩
      have a0 : 0 ≤ 1 - y / x := by rw [sub_nonneg, div_le_one hx]; exact hyx
      have b0 : 0 ≤ y / x := by positivity
      have ab : 1 - y / x + y / x = 1 := by ring
      have hc := strictConcaveOn_sin_Icc.concaveOn.2 m0 mx a0 b0 ab
      simp only [smul_eq_mul, Real.sin_zero, mul_zero, zero_add] at hc
      rw [div_mul_cancel₀ _ hx.ne'] at hc
      rw [div_mul_eq_mul_div, div_le_iff₀ hx] at hc
      linarith
    · have h1 := Real.mul_le_sin hy.le hy2
      have h2 := Real.abs_sin_le_one x
      have h3 : 2 * y ≤ Real.sin y * x := by
        have : 2 / Real.pi * y * Real.pi ≤ Real.sin y * x :=
          mul_le_mul h1 (not_le.1 h).le hπ.le hsy
        have e : 2 / Real.pi * y * Real.pi = 2 * y := by field_simp
        linarith
      nlinarith
  have := mul_self_le_mul_self (by positivity) key
  have e : |Real.sin x| * y * (|Real.sin x| * y) = Real.sin x ^ 2 * y ^ 2 := by
    rw [← sq_abs (Real.sin x)]; ring
  nlinarith

theorem sum_sin_sq (t : ℝ) (M : ℕ) :
    4 * Real.sin t * ∑ m ∈ range M, Real.sin ((m + 1) * t) ^ 2 = (2 * M + 1) * Real.sin t - Real.sin ((2 * M + 1) * t) := by
  induction M with
  | zero => simp
  | succ n ih =>
    rw [sum_range_succ, mul_add, ih]
    push_cast
    have e1 : (2 * ((n : ℝ) + 1) + 1) * t = 2 * ((n + 1) * t) + t := by ring
    have e2 : (2 * (n : ℝ) + 1) * t = 2 * ((n + 1) * t) - t := by ring
    rw [e1, e2, Real.sin_add, Real.sin_sub, Real.cos_two_mul']
    have := Real.sin_sq_add_cos_sq ((n + 1) * t)
    generalize Real.sin ((n + 1) * t) = S at *
    generalize Real.cos ((n + 1) * t) = C at *
    linear_combination 2 * Real.sin t * this

theorem sum_sq (M : ℕ) : ∑ m ∈ range M, ((m : ℝ) + 1) ^ 2 = (M : ℝ) * (M + 1) * (2 * M + 1) / 6 := by
  induction M with
  | zero => simp
  | succ n ih =>
    rw [sum_range_succ, ih]
    push_cast
    ring

theorem partial_sums (t : ℝ) (h0 : 0 < t) (h1 : t ≤ Real.pi / 2) (M K : ℕ) (hK : M < K) :
    Real.sin (K * t) ^ 2 * ∑ m ∈ range M, ((m : ℝ) + 1) ^ 2 ≤ K ^ 2 * ∑ m ∈ range M, Real.sin ((m + 1) * t) ^ 2 := by
  have hπ := Real.pi_pos
  by_cases hc : M * t ≤ Real.pi / 2
  · rw [mul_sum, mul_sum]
    refine sum_le_sum fun m hm => ?_
    rw [mem_range] at hm
    have hmM : (m : ℝ) + 1 ≤ M := by exact_mod_cast hm
    have hMK : (M : ℝ) ≤ K := by exact_mod_cast hK.le
    have := sinc_le (K * t) ((m + 1) * t) (by positivity) (by nlinarith) (by nlinarith)
    have ht2 : 0 < t ^ 2 := by positivity
    have e1 : Real.sin (K * t) ^ 2 * ((m + 1) * t) ^ 2 = (Real.sin (K * t) ^ 2 * ((m : ℝ) + 1) ^ 2) * t ^ 2 := by ring
    have e2 : Real.sin ((m + 1) * t) ^ 2 * (K * t) ^ 2 = (K ^ 2 * Real.sin ((m + 1) * t) ^ 2) * t ^ 2 := by ring
    rw [e1, e2] at this
    exact le_of_mul_le_mul_right this ht2
  · have hc := not_le.1 hc
    have hM : 0 < (M : ℝ) := by
      by_contra h
      have : (M : ℝ) * t ≤ 0 := mul_nonpos_of_nonpos_of_nonneg (not_lt.1 h) h0.le
      linarith
    have hs : 0 < Real.sin t := Real.sin_pos_of_pos_of_lt_pi h0 (by linarith)
    have hb : Real.sin ((2 * M + 1) * t) ≤ (M / 2 + 1) * Real.sin t := by
      by_cases h2 : (2 * M + 1) * t ≤ 2 * Real.pi
      · have : Real.sin ((2 * M + 1) * t) ≤ 0 := by
          rw [← Real.sin_sub_two_pi]
          exact Real.sin_nonpos_of_nonpos_of_neg_pi_le (by linarith) (by nlinarith)
        have : 0 ≤ ((M : ℝ) / 2 + 1) * Real.sin t := by positivity
        linarith
      · have h2 := not_le.1 h2
        have h3 := Real.mul_le_sin h0.le h1
        have h4 := Real.sin_le_one ((2 * M + 1) * t)
        have h5 : 4 ≤ (2 * M + 1) * Real.sin t := by
          have h6 : (2 * M + 1) * (2 / Real.pi * t) ≤ (2 * M + 1) * Real.sin t :=
            mul_le_mul_of_nonneg_left h3 (by positivity)
          have h7 : 4 ≤ (2 * M + 1) * (2 / Real.pi * t) := by
            have : (2 * M + 1) * (2 / Real.pi * t) = 2 * ((2 * M + 1) * t) / Real.pi := by ring
            rw [this, le_div_iff₀ hπ]
            linarith
          linarith
        nlinarith
    have hsum := sum_sin_sq t M
    have hS : 3 * (M : ℝ) / 8 ≤ ∑ m ∈ range M, Real.sin ((m + 1) * t) ^ 2 := by
      have : 4 * Real.sin t * (3 * (M : ℝ) / 8) ≤ 4 * Real.sin t * ∑ m ∈ range M, Real.sin ((m + 1) * t) ^ 2 := by
        rw [hsum]
        nlinarith
      exact le_of_mul_le_mul_left this (by positivity)
    have hK1 : (M : ℝ) + 1 ≤ K := by exact_mod_cast hK
    have hK2 : ((M : ℝ) + 1) ^ 2 ≤ K ^ 2 := by nlinarith
    calc Real.sin (K * t) ^ 2 * ∑ m ∈ range M, ((m : ℝ) + 1) ^ 2 ≤ 1 * ∑ m ∈ range M, ((m : ℝ) + 1) ^ 2 :=
          mul_le_mul_of_nonneg_right (Real.sin_sq_le_one _) (sum_nonneg fun _ _ => by positivity)
      _ = M * (M + 1) * (2 * M + 1) / 6 := by rw [one_mul, sum_sq]
      _ ≤ ((M : ℝ) + 1) ^ 2 * (3 * M / 8) := by nlinarith
      _ ≤ K ^ 2 * ∑ m ∈ range M, Real.sin ((m + 1) * t) ^ 2 := mul_le_mul hK2 hS (by positivity) (by positivity)

theorem abel (a : ℝ) (h0 : 0 ≤ a) (h1 : a ≤ 1) (c : ℕ → ℝ) (n : ℕ) (h : ∀ m ≤ n, 0 ≤ ∑ i ∈ range m, c i) :
    a ^ n * ∑ i ∈ range n, c i ≤ ∑ i ∈ range n, a ^ i * c i := by
  induction n with
  | zero => simp
  | succ n ih =>
    have i1 := ih fun m hm => h m (by omega)
    have hS := h (n + 1) le_rfl
    rw [sum_range_succ (fun i => a ^ i * c i)]
    have : a ^ (n + 1) * ∑ i ∈ range (n + 1), c i ≤ a ^ n * ∑ i ∈ range (n + 1), c i := by
      apply mul_le_mul_of_nonneg_right _ hS
      exact pow_le_pow_of_le_one h0 h1 (Nat.le_succ n)
    rw [sum_range_succ c, mul_add] at this ⊢
    rw [sum_range_succ c] at hS
    linarith

/-- within the band -/
theorem U_band (N : ℕ) (a v : ℝ) (h0 : 0 ≤ a) (h1 : a ≤ 1) (hv0 : 0 ≤ v) (hv1 : v ≤ 1) :
    (U ℝ N).eval v ^ 2 * ∑ m ∈ range N, a ^ m * ((m : ℝ) + 1) ^ 2 ≤
      ((N : ℝ) + 1) ^ 2 * ∑ m ∈ range N, a ^ m * (U ℝ m).eval v ^ 2 := by
  rcases hv1.eq_or_lt with rfl | hv1
  · have : ∀ m : ℕ, (U ℝ m).eval (1 : ℝ) = (m : ℝ) + 1 := by
      intro m
      rw [Polynomial.Chebyshev.U_eval_one]
      push_cast
      rfl
    simp only [this]
    exact le_rfl
  · obtain ⟨t, ht⟩ : ∃ t, t = Real.arccos v := ⟨_, rfl⟩
    have hcos : Real.cos t = v := ht ▸ Real.cos_arccos (by linarith) hv1.le
    have ht0 : 0 < t := ht ▸ Real.arccos_pos.2 hv1
    have ht1 : t ≤ Real.pi / 2 := ht ▸ Real.arccos_le_pi_div_two.2 hv0
    have hs : 0 < Real.sin t := Real.sin_pos_of_pos_of_lt_pi ht0 (by linarith [Real.pi_pos])
    have hU : ∀ m : ℕ, (U ℝ m).eval v * Real.sin t = Real.sin ((m + 1) * t) := by
      intro m
      have := Polynomial.Chebyshev.U_real_cos t m
      rw [hcos] at this
      exact_mod_cast this
    have hab := abel a h0 h1
      (fun m => ((N : ℝ) + 1) ^ 2 * Real.sin ((m + 1) * t) ^ 2 - Real.sin (((N : ℝ) + 1) * t) ^ 2 * ((m : ℝ) + 1) ^ 2) N (by
        intro M hM
        rw [sum_sub_distrib, ← mul_sum, ← mul_sum, sub_nonneg]
        have := partial_sums t ht0 ht1 M (N + 1) (by omega)
        push_cast at this
        exact this)
    have hpos : 0 ≤ a ^ N * ∑ m ∈ range N,
        (((N : ℝ) + 1) ^ 2 * Real.sin ((m + 1) * t) ^ 2 - Real.sin (((N : ℝ) + 1) * t) ^ 2 * ((m : ℝ) + 1) ^ 2) := by
      apply mul_nonneg (by positivity)
      rw [sum_sub_distrib, ← mul_sum, ← mul_sum, sub_nonneg]
      have := partial_sums t ht0 ht1 N (N + 1) (by omega)
      push_cast at this
      exact this
    have hle := hpos.trans hab
    have e : ∑ m ∈ range N, a ^ m *
        (((N : ℝ) + 1) ^ 2 * Real.sin ((m + 1) * t) ^ 2 - Real.sin (((N : ℝ) + 1) * t) ^ 2 * ((m : ℝ) + 1) ^ 2) =
        (((N : ℝ) + 1) ^ 2 * (∑ m ∈ range N, a ^ m * (U ℝ m).eval v ^ 2) -
          (U ℝ N).eval v ^ 2 * ∑ m ∈ range N, a ^ m * ((m : ℝ) + 1) ^ 2) * Real.sin t ^ 2 := by
      rw [mul_sum, mul_sum, ← sum_sub_distrib, sum_mul]
      refine sum_congr rfl fun m _ => ?_
      rw [← hU m, ← hU N]
      ring
    rw [e] at hle
    have := nonneg_of_mul_nonneg_left hle (by positivity)
    linarith

theorem U_step (v : ℝ) (hv : 1 < v) (m : ℕ) :
    0 < (U ℝ m).eval v ∧ ((m : ℝ) + 2) * (U ℝ m).eval v < (m + 1) * (U ℝ (m + 1 : ℕ)).eval v := by
  induction m with
  | zero => simp; linarith
  | succ n ih =>
    have hrec : (U ℝ (n + 1 + 1 : ℕ)).eval v = 2 * v * (U ℝ (n + 1 : ℕ)).eval v - (U ℝ n).eval v := by
      have := congrArg (Polynomial.eval v) (Polynomial.Chebyshev.U_add_two ℝ (n : ℤ))
      push_cast
      rw [show (n : ℤ) + 1 + 1 = n + 2 by ring, this]
      simp
    have hn : (0 : ℝ) ≤ n := by positivity
    have hp : 0 < (U ℝ (n + 1 : ℕ)).eval v := by
      have : 0 < ((n : ℝ) + 2) * (U ℝ n).eval v := mul_pos (by positivity) ih.1
      exact (mul_pos_iff_of_pos_left (show (0 : ℝ) < n + 1 by positivity)).1 (by linarith [ih.2])
    refine ⟨hp, ?_⟩
    rw [hrec]
    push_cast at hp ih ⊢
    have h3 : 0 < (v - 1) * (Polynomial.eval v (U ℝ ((n : ℤ) + 1))) := mul_pos (by linarith) hp
    nlinarith [ih.2]

/-- beyond the band -/
theorem U_beyond (v : ℝ) (hv : 1 < v) (m N : ℕ) (h : m < N) :
    ((N : ℝ) + 1) * (U ℝ m).eval v < (m + 1) * (U ℝ N).eval v := by
  induction N, h using Nat.le_induction with
  | base =>
    have := (U_step v hv m).2
    push_cast at this ⊢
    linarith
  | succ n hn ih =>
    have h2 := (U_step v hv n).2
    have hm := (U_step v hv m).1
    push_cast at h2 ⊢
    have hn0 : (0 : ℝ) < (n : ℝ) + 1 := by positivity
    have hm0 : (0 : ℝ) < (m : ℝ) + 1 := by positivity
    have a1 : ((n : ℝ) + 2) * (((n : ℝ) + 1) * (U ℝ m).eval v) < ((n : ℝ) + 2) * ((m + 1) * (U ℝ n).eval v) :=
      mul_lt_mul_of_pos_left ih (by positivity)
    have a2 : ((m : ℝ) + 1) * (((n : ℝ) + 2) * (U ℝ n).eval v) < (m + 1) * (((n : ℝ) + 1) * (U ℝ ((n : ℤ) + 1)).eval v) :=
      mul_lt_mul_of_pos_left h2 hm0
    apply lt_of_mul_lt_mul_left _ hn0.le
    nlinarith

end Cbadc.Synthesis
