import Mathlib.LinearAlgebra.Lagrange
import Mathlib.Analysis.SpecialFunctions.Trigonometric.Basic
import Mathlib.Analysis.SpecialFunctions.Trigonometric.Inverse
import Mathlib.Tactic.LinearCombination
import Mathlib.Tactic.ComputeDegree

/-! # The characteristic polynomial of a leap-frog structure with equal couplings -/

namespace Cbadc.Synthesis
open Finset Polynomial

/-- continuant with `p (m+2) = s p (m+1) + w^2 p m` -/
noncomputable def cont (w : ℂ) : ℕ → ℂ[X]
  | 0 => 1
  | 1 => X
  | m + 2 => X * cont w (m + 1) + C (w ^ 2) * cont w m

theorem cont_eval_zero (w s : ℂ) : (cont w 0).eval s = 1 := by simp [cont]

theorem cont_eval_one (w s : ℂ) : (cont w 1).eval s = s := by simp [cont]

theorem cont_eval_succ (w s : ℂ) (m : ℕ) :
    (cont w (m + 2)).eval s = s * (cont w (m + 1)).eval s + w ^ 2 * (cont w m).eval s := by simp [cont]

theorem cont_monic (w : ℂ) : ∀ m, (cont w m).Monic ∧ (cont w m).natDegree = m
  | 0 => by simp [cont]
  | 1 => by simp [cont, monic_X]
  | m + 2 => by
    obtain ⟨h1, d1⟩ := cont_monic w (m + 1)
    obtain ⟨h2, d2⟩ := cont_monic w m
    have hm : (X * cont w (m + 1)).Monic := monic_X.mul h1
    have hd : (X * cont w (m + 1)).natDegree = m + 2 := by
      rw [monic_X.natDegree_mul h1, natDegree_X, d1]
      omega
    have hlt : (C (w ^ 2) * cont w m).degree < (X * cont w (m + 1)).degree := by
      refine lt_of_le_of_lt ((degree_mul_le _ _).trans (add_le_add_left degree_C_le _)) ?_
      rw [zero_add]
      rw [degree_eq_natDegree h2.ne_zero, degree_eq_natDegree hm.ne_zero, hd, d2]
      exact_mod_cast (by omega : m < m + 2)
    refine ⟨hm.add_of_left hlt, ?_⟩
    show (X * cont w (m + 1) + C (w ^ 2) * cont w m).natDegree = m + 2
    rw [natDegree_add_eq_left_of_degree_lt hlt, hd]

theorem sin_step (a t : ℂ) : Complex.sin (a + t) = 2 * Complex.cos t * Complex.sin a - Complex.sin (a - t) := by
  rw [Complex.sin_add, Complex.sin_sub]
  ring

theorem cont_cos (w t : ℂ) : ∀ m, (cont w m).eval (2 * Complex.I * w * Complex.cos t) * Complex.sin t =
    (Complex.I * w) ^ m * Complex.sin ((m + 1 : ℕ) * t)
  | 0 => by simp [cont]
  | 1 => by
    rw [cont_eval_one]
    have : ((1 + 1 : ℕ) : ℂ) * t = 2 * t := by push_cast; ring
    rw [this, Complex.sin_two_mul]
    ring
  | m + 2 => by
    rw [cont_eval_succ]
    have h1 := cont_cos w t (m + 1)
    have h2 := cont_cos w t m
    have e1 : ((m + 2 + 1 : ℕ) : ℂ) * t = ((m + 1 + 1 : ℕ) : ℂ) * t + t := by push_cast; ring
    have e2 : ((m + 1 : ℕ) : ℂ) * t = ((m + 1 + 1 : ℕ) : ℂ) * t - t := by push_cast; ring
    have e3 := sin_step (((m + 1 + 1 : ℕ) : ℂ) * t) t
    rw [← e1, ← e2] at e3
    rw [e3, pow_succ, pow_succ]
    rw [pow_succ] at h1
    have hI := Complex.I_mul_I
    linear_combination 2 * Complex.I * w * Complex.cos t * h1 + w ^ 2 * h2 -
      (Complex.I * w) ^ m * w ^ 2 * Complex.sin ((m + 1 : ℕ) * t) * (-hI)

/-- the angles of the resonances -/
noncomputable def angle (N j : ℕ) : ℝ := j * Real.pi / (N + 1)

theorem angle_mem (N j : ℕ) (hj : 1 ≤ j) (hN : j ≤ N) : 0 < angle N j ∧ angle N j < Real.pi := by
  have hπ := Real.pi_pos
  have h1 : (1 : ℝ) ≤ j := by exact_mod_cast hj
  have h2 : (j : ℝ) ≤ N := by exact_mod_cast hN
  unfold angle
  constructor
  · positivity
  · rw [div_lt_iff₀ (by positivity)]
    nlinarith

theorem cont_root (w : ℂ) (N j : ℕ) (hj : 1 ≤ j) (hN : j ≤ N) :
    (cont w N).eval (2 * Complex.I * w * (Real.cos (angle N j) : ℂ)) = 0 := by
  have h := cont_cos w (angle N j : ℂ) N
  have hs : Complex.sin (angle N j : ℂ) ≠ 0 := by
    rw [← Complex.ofReal_sin, Complex.ofReal_ne_zero]
    exact (Real.sin_pos_of_pos_of_lt_pi (angle_mem N j hj hN).1 (angle_mem N j hj hN).2).ne'
  have he : ((N + 1 : ℕ) : ℂ) * (angle N j : ℂ) = j * Real.pi := by
    unfold angle
    push_cast
    have : (N : ℂ) + 1 ≠ 0 := by exact_mod_cast Nat.succ_ne_zero N
    rw [mul_div_cancel₀ _ this]
  rw [he, Complex.sin_nat_mul_pi, mul_zero] at h
  rw [Complex.ofReal_cos]
  exact (mul_eq_zero.1 h).resolve_right hs

theorem cont_prod (w : ℂ) (hw : w ≠ 0) (N : ℕ) (s : ℂ) :
    (cont w N).eval s = ∏ j ∈ Icc 1 N, (s - 2 * Complex.I * w * (Real.cos (angle N j) : ℂ)) := by
  have hinj : Set.InjOn (fun j => 2 * Complex.I * w * (Real.cos (angle N j) : ℂ)) (Icc 1 N : Finset ℕ) := by
    intro a ha b hb hab
    rw [Finset.mem_coe, Finset.mem_Icc] at ha hb
    dsimp only at hab
    have h2 : 2 * Complex.I * w ≠ 0 := mul_ne_zero (mul_ne_zero two_ne_zero Complex.I_ne_zero) hw
    have h3 := mul_left_cancel₀ h2 hab
    rw [Complex.ofReal_inj] at h3
    have m1 := angle_mem N a ha.1 ha.2
    have m2 := angle_mem N b hb.1 hb.2
    have h4 := Real.injOn_cos ⟨m1.1.le, m1.2.le⟩ ⟨m2.1.le, m2.2.le⟩ h3
    unfold angle at h4
    have h5 : ((N : ℝ) + 1) ≠ 0 := by positivity
    rw [div_left_inj' h5] at h4
    exact_mod_cast mul_right_cancel₀ Real.pi_ne_zero h4
  have key : cont w N = ∏ j ∈ Icc 1 N, (X - C (2 * Complex.I * w * (Real.cos (angle N j) : ℂ))) := by
    obtain ⟨hm, hd⟩ := cont_monic w N
    have hqm : (∏ j ∈ Icc 1 N, (X - C (2 * Complex.I * w * (Real.cos (angle N j) : ℂ)))).Monic :=
      monic_prod_of_monic _ _ fun j _ => monic_X_sub_C _
    have hqd : (∏ j ∈ Icc 1 N, (X - C (2 * Complex.I * w * (Real.cos (angle N j) : ℂ)))).natDegree = N := by
      rw [natDegree_prod_of_monic _ _ fun j _ => monic_X_sub_C _]
      simp only [natDegree_X_sub_C]
      simp
    have hcard : ((Icc 1 N).image fun j => 2 * Complex.I * w * (Real.cos (angle N j) : ℂ)).card = N := by
      rw [Finset.card_image_of_injOn hinj]
      simp
    refine eq_of_degree_sub_lt_of_eval_finset_eq ((Icc 1 N).image fun j => 2 * Complex.I * w * (Real.cos (angle N j) : ℂ)) ?_ ?_
    · rw [hcard]
      have := degree_sub_lt_left (p := cont w N)
        (q := ∏ j ∈ Icc 1 N, (X - C (2 * Complex.I * w * (Real.cos (angle N j) : ℂ))))
        (by rw [degree_eq_natDegree hm.ne_zero, degree_eq_natDegree hqm.ne_zero, hd, hqd]) hm.ne_zero
        (by rw [hm.leadingCoeff, hqm.leadingCoeff])
      rwa [degree_eq_natDegree hm.ne_zero, hd] at this
    · intro x hx
      rw [Finset.mem_image] at hx
      obtain ⟨j, hj, rfl⟩ := hx
      have hj' := Finset.mem_Icc.1 hj
      rw [cont_root w N j hj'.1 hj'.2, eval_prod]
      symm
      apply Finset.prod_eq_zero hj
      simp
  rw [key, eval_prod]
  simp

/-- The state equations of a leap-frog structure with equal couplings, solved from the last integrator backwards. -/
theorem leap_solve (N : ℕ) (hN : N ≠ 0) (w beta alpha s u : ℂ) (hb : beta ≠ 0) (hab : beta * alpha = -w ^ 2) (x : ℕ → ℂ) :
    (∀ r < N, s * x r = (if r + 1 < N then alpha * x (r + 1) else 0) + if r = 0 then beta * u else beta * x (r - 1)) ↔
      ((cont w N).eval s * x (N - 1) = beta ^ N * u ∧
        ∀ m < N, x (N - 1 - m) * beta ^ m = (cont w m).eval s * x (N - 1)) := by
  constructor
  · intro h
    have hx : ∀ m, m < N → x (N - 1 - m) * beta ^ m = (cont w m).eval s * x (N - 1) := by
      intro m
      induction m using Nat.strong_induction_on with
      | _ m ih =>
        intro hm
        match m, ih, hm with
        | 0, _, _ => rw [cont_eval_zero, Nat.sub_zero, pow_zero]; ring
        | 1, _, hm =>
          have := h (N - 1) (by omega)
          rw [if_neg (by omega), if_neg (by omega), zero_add] at this
          rw [cont_eval_one, pow_one, this]
          ring
        | m + 2, ih, hm =>
          have i1 := ih (m + 1) (by omega) (by omega)
          have i2 := ih m (by omega) (by omega)
          have := h (N - 1 - (m + 1)) (by omega)
          rw [if_pos (by omega), if_neg (by omega), show N - 1 - (m + 1) + 1 = N - 1 - m by omega,
            show N - 1 - (m + 1) - 1 = N - 1 - (m + 2) by omega] at this
          rw [cont_eval_succ]
          rw [pow_succ] at i1 ⊢
          linear_combination -beta ^ (m + 1) * this + s * i1 + w ^ 2 * i2 - x (N - 1 - m) * beta ^ m * hab
    refine ⟨?_, hx⟩
    have h0 := h 0 (Nat.pos_of_ne_zero hN)
    rw [if_pos rfl] at h0
    match N, hN, hx, h0 with
    | 1, _, _, h0 =>
      rw [if_neg (by omega), zero_add] at h0
      rw [cont_eval_one, pow_one]
      exact h0
    | N + 2, _, hx, h0 =>
      rw [if_pos (by omega)] at h0
      have i1 := hx (N + 1) (by omega)
      have i2 := hx N (by omega)
      rw [show N + 2 - 1 - (N + 1) = 0 by omega] at i1
      rw [show N + 2 - 1 - N = 0 + 1 by omega] at i2
      rw [cont_eval_succ, pow_succ]
      rw [pow_succ] at i1
      linear_combination beta ^ (N + 1) * h0 - s * i1 - w ^ 2 * i2 + x (0 + 1) * beta ^ N * hab
  · rintro ⟨h1, h2⟩ r hr
    obtain ⟨m, hm⟩ : ∃ m, m = N - 1 - r := ⟨_, rfl⟩
    have hr' : r = N - 1 - m := by omega
    have hmN : m < N := by omega
    have i0 := h2 m hmN
    rw [← hr'] at i0
    apply mul_right_cancel₀ (pow_ne_zero m hb)
    have up : (if r + 1 < N then alpha * x (r + 1) else 0) * beta ^ m =
        if m = 0 then 0 else -w ^ 2 * ((cont w (m - 1)).eval s * x (N - 1)) := by
      by_cases hm0 : m = 0
      · rw [if_pos hm0, if_neg (by omega), zero_mul]
      · rw [if_neg hm0, if_pos (by omega)]
        obtain ⟨q, rfl⟩ : ∃ q, m = q + 1 := ⟨m - 1, by omega⟩
        have i := h2 q (by omega)
        rw [show N - 1 - q = r + 1 by omega] at i
        rw [Nat.add_sub_cancel, pow_succ]
        linear_combination -w ^ 2 * i + x (r + 1) * beta ^ q * hab
    have low : (if r = 0 then beta * u else beta * x (r - 1)) * beta ^ m = (cont w (m + 1)).eval s * x (N - 1) := by
      by_cases h0 : r = 0
      · rw [if_pos h0]
        rw [show m + 1 = N by omega, h1]
        have : N = m + 1 := by omega
        rw [this, pow_succ]
        ring
      · rw [if_neg h0]
        have i := h2 (m + 1) (by omega)
        rw [show N - 1 - (m + 1) = r - 1 by omega, pow_succ] at i
        linear_combination i
    rw [add_mul, up, low]
    by_cases hm0 : m = 0
    · rw [if_pos hm0, hm0, pow_zero, cont_eval_one, show r = N - 1 by omega]
      ring
    · rw [if_neg hm0]
      obtain ⟨q, rfl⟩ : ∃ q, m = q + 1 := ⟨m - 1, by omega⟩
      rw [Nat.add_sub_cancel, cont_eval_succ]
      linear_combination s * i0

end Cbadc.Synthesis
