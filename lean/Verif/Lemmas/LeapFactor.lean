import Mathlib.Analysis.SpecialFunctions.Trigonometric.Chebyshev.RootsExtrema
import Mathlib.Analysis.SpecialFunctions.Integrals.Basic
import Mathlib.Analysis.Calculus.Deriv.Polynomial
import Mathlib.Topology.Algebra.Polynomial
import Verif.Model.LeapFactor

/-! # The integral of the squared Chebyshev polynomial of the second kind -/

namespace Cbadc.Synthesis
open Polynomial Finset
open Polynomial.Chebyshev (T U)

theorem U_prod (N : ℕ) (x : ℝ) :
    (U ℝ N).eval x = 2 ^ N * ∏ k ∈ range N, (x - Real.cos ((k + 1) * Real.pi / (N + 1))) := by
  have hinj : Set.InjOn (fun k : ℕ => Real.cos ((k + 1) * Real.pi / (N + 1))) (range N : Finset ℕ) :=
    (Finset.range N).nodup_map_iff_injOn.mp (Chebyshev.roots_U_real_nodup N)
  have hroots := Chebyshev.roots_U_real N
  have hcard : Multiset.card (U ℝ N).roots = (U ℝ N).natDegree := by
    rw [hroots, Finset.card_val, Finset.card_image_of_injOn hinj, Finset.card_range, Chebyshev.natDegree_U_natCast]
  have h := Polynomial.C_leadingCoeff_mul_prod_multiset_X_sub_C hcard
  rw [← h, hroots, eval_mul, eval_C, Chebyshev.leadingCoeff_U_natCast, eval_multiset_prod, Multiset.map_map]
  congr 1
  change ∏ a ∈ (range N).image _, _ = _
  rw [Finset.prod_image hinj]
  refine Finset.prod_congr rfl fun k _ => ?_
  simp

theorem U_sq (n : ℕ) (x : ℝ) :
    (U ℝ (n + 1 : ℕ)).eval x ^ 2 = (U ℝ n).eval x ^ 2 + (U ℝ (2 * (n + 1) : ℕ)).eval x := by
  have h : (U ℝ (n + 1 : ℕ)) ^ 2 = (U ℝ n) ^ 2 + U ℝ (2 * (n + 1) : ℕ) := by
    apply Polynomial.eq_of_infinite_eval_eq
    refine Set.Infinite.mono ?_ (Set.Ioo_infinite (show (-1 : ℝ) < 1 by norm_num))
    intro y hy
    have hc := Real.cos_arccos hy.1.le hy.2.le
    have hs : Real.sin (Real.arccos y) ≠ 0 :=
      (Real.sin_pos_of_pos_of_lt_pi (Real.arccos_pos.2 hy.2) (by
        have := Real.arccos_lt_arccos (x := -1) (y := y) le_rfl hy.1 hy.2.le
        rwa [Real.arccos_neg_one] at this)).ne'
    obtain ⟨t, ht⟩ : ∃ t, t = Real.arccos y := ⟨_, rfl⟩
    rw [← ht] at hc hs
    rw [Set.mem_ofPred_eq, ← hc, eval_pow, eval_add, eval_pow]
    have h1 := Chebyshev.U_real_cos t (n + 1 : ℕ)
    have h2 := Chebyshev.U_real_cos t n
    have h3 := Chebyshev.U_real_cos t (2 * (n + 1) : ℕ)
    have key : Real.sin (((n + 1 : ℕ) + 1) * t) ^ 2 = Real.sin ((n + 1) * t) ^ 2 +
        Real.sin (((2 * (n + 1) : ℕ) + 1) * t) * Real.sin t := by
      have e1 : (((n + 1 : ℕ) : ℝ) + 1) * t = (n + 1) * t + t := by push_cast; ring
      have e2 : (((2 * (n + 1) : ℕ) : ℝ) + 1) * t = ((n + 1) * t + t) + (n + 1) * t := by push_cast; ring
      rw [e1, e2, Real.sin_add ((n + 1) * t + t), Real.sin_add, Real.cos_add]
      have b := Real.sin_sq_add_cos_sq t
      generalize Real.sin ((n + 1) * t) = S at *
      generalize Real.cos ((n + 1) * t) = C at *
      generalize Real.sin t = s at *
      generalize Real.cos t = c at *
      linear_combination S ^ 2 * b
    push_cast at h1 h2 h3 key
    rw [← h1, ← h2, ← h3] at key
    apply mul_right_cancel₀ (pow_ne_zero 2 hs)
    push_cast
    linear_combination key
  have := congrArg (Polynomial.eval x) h
  rwa [eval_pow, eval_add, eval_pow] at this

theorem integral_U_even (n : ℕ) : ∫ x in (0 : ℝ)..1, (U ℝ (2 * n : ℕ)).eval x = 1 / (2 * n + 1) := by
  have hn : (2 * n + 1 : ℝ) ≠ 0 := by positivity
  have hd : ∀ x ∈ Set.uIcc (0 : ℝ) 1,
      HasDerivAt (fun x => (T ℝ (2 * n + 1 : ℤ)).eval x / (2 * n + 1)) ((U ℝ (2 * n : ℕ)).eval x) x := by
    intro x _
    have h := ((T ℝ (2 * n + 1 : ℤ)).hasDerivAt x).div_const (2 * n + 1 : ℝ)
    rw [Chebyshev.T_derivative_eq_U] at h
    have e : eval x (((2 * n + 1 : ℤ) : ℝ[X]) * U ℝ (2 * n + 1 - 1 : ℤ)) / (2 * n + 1) = (U ℝ (2 * n : ℕ)).eval x := by
      have : (2 * n + 1 - 1 : ℤ) = ((2 * n : ℕ) : ℤ) := by push_cast; ring
      rw [eval_mul, this, div_eq_iff hn, mul_comm]
      simp
    rwa [e] at h
  rw [intervalIntegral.integral_eq_sub_of_hasDerivAt hd
    ((Polynomial.continuous _).intervalIntegrable _ _), Chebyshev.T_eval_one, Chebyshev.T_eval_zero_of_odd ℝ ⟨(n : ℤ), rfl⟩]
  ring

theorem integral_U_sq (n : ℕ) :
    ∫ x in (0 : ℝ)..1, (U ℝ n).eval x ^ 2 = ∑ k ∈ range (n + 1), 1 / (2 * k + 1 : ℝ) := by
  induction n with
  | zero => simp
  | succ n ih =>
    simp only [U_sq]
    have hc : Continuous fun x => (U ℝ n).eval x ^ 2 := (Polynomial.continuous _).pow 2
    rw [intervalIntegral.integral_add (hc.intervalIntegrable _ _)
      ((Polynomial.continuous _).intervalIntegrable _ _), ih, integral_U_even, Finset.sum_range_succ _ (n + 1)]

end Cbadc.Synthesis
