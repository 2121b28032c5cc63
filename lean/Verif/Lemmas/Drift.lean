import Mathlib.Analysis.ODE.Gronwall
import Mathlib.Analysis.Calculus.Deriv.Add
import Mathlib.Analysis.Calculus.FDeriv.Pi
import Mathlib.Analysis.Calculus.Deriv.Prod
import Mathlib.Analysis.Normed.Group.Bounded
import Mathlib.Tactic.Linarith
import Mathlib.Tactic.FieldSimp
import Mathlib.Tactic.Positivity

/-! # The distance of two driven linear systems whose inputs differ for a short time -/

namespace Cbadc.ClosedLoop
open Set Finset

theorem gronwall_simple {d a ε x : ℝ} (ha : 0 ≤ a) (hε : 0 ≤ ε) :
    gronwallBound d a ε x ≤ (d + ε * x) * Real.exp (a * x) := by
  rcases ha.eq_or_lt with rfl | ha
  · rw [gronwallBound_K0]
    simp
  · rw [gronwallBound_of_K_ne_0 ha.ne']
    have h1 : 1 - a * x ≤ Real.exp (-(a * x)) := by
      have := Real.add_one_le_exp (-(a * x))
      linarith
    have h2 : Real.exp (a * x) - 1 ≤ a * x * Real.exp (a * x) := by
      have h3 := mul_le_mul_of_nonneg_right h1 (Real.exp_pos (a * x)).le
      rw [← Real.exp_add, neg_add_cancel, Real.exp_zero] at h3
      linarith
    have h4 : ε / a * (Real.exp (a * x) - 1) ≤ ε / a * (a * x * Real.exp (a * x)) :=
      mul_le_mul_of_nonneg_left h2 (by positivity)
    have h5 : ε / a * (a * x * Real.exp (a * x)) = ε * x * Real.exp (a * x) := by
      field_simp
    show d * Real.exp (a * x) + ε / a * (Real.exp (a * x) - 1) ≤ _
    rw [h5] at h4
    linarith

/-- One stretch on which the derivative is bounded by a multiple of the distance and a constant. -/
theorem stretch {N : ℕ} {f f' : ℝ → Fin N → ℝ} {p q d a ε : ℝ} (ha : 0 ≤ a) (hε : 0 ≤ ε)
    (hc : ContinuousOn f (Icc p q)) (hd : ∀ x ∈ Ico p q, HasDerivWithinAt f (f' x) (Ici x) x)
    (h0 : ‖f p‖ ≤ d) (hb : ∀ x ∈ Ico p q, ‖f' x‖ ≤ a * ‖f x‖ + ε) :
    ∀ x ∈ Icc p q, ‖f x‖ ≤ (d + ε * (x - p)) * Real.exp (a * (x - p)) := by
  intro x hx
  exact (norm_le_gronwallBound_of_norm_deriv_right_le hc hd h0 hb x hx).trans (gronwall_simple ha hε)

/-- The derivative is bounded by a multiple of the distance outside a window and by that and a constant in it. -/
theorem window {N : ℕ} {f f' : ℝ → Fin N → ℝ} {T δ r d a ε : ℝ} (ha : 0 ≤ a) (hε : 0 ≤ ε)
    (hδ : 0 ≤ δ) (hr : 0 ≤ r) (hT : δ + r < T)
    (hc : ContinuousOn f (Icc 0 T)) (hd : ∀ x ∈ Ico 0 T, HasDerivWithinAt f (f' x) (Ici x) x)
    (h0 : ‖f 0‖ ≤ d) (hb : ∀ x ∈ Ico 0 T, ‖f' x‖ ≤ a * ‖f x‖ + ε)
    (hb' : ∀ x ∈ Ico 0 T, x < δ ∨ δ + r < x → ‖f' x‖ ≤ a * ‖f x‖) :
    ∀ x ∈ Icc 0 T, ‖f x‖ ≤ (d + ε * r) * Real.exp (a * x) := by
  have key : ∀ η, 0 < η → δ + (r + η) ≤ T → ∀ x ∈ Icc 0 T, ‖f x‖ ≤ (d + ε * (r + η)) * Real.exp (a * x) := by
    intro η hη hηT
    have s1 := stretch (p := 0) (q := δ) ha le_rfl (hc.mono (Icc_subset_Icc le_rfl (by linarith)))
      (fun x hx => hd x ⟨hx.1, by linarith [hx.2]⟩) h0
      (fun x hx => by rw [add_zero]; exact hb' x ⟨hx.1, by linarith [hx.2]⟩ (Or.inl hx.2))
    have s2 := stretch (p := δ) (q := δ + (r + η)) ha hε (hc.mono (Icc_subset_Icc hδ hηT))
      (fun x hx => hd x ⟨by linarith [hx.1], by linarith [hx.2]⟩)
      (s1 δ ⟨hδ, le_rfl⟩)
      (fun x hx => hb x ⟨by linarith [hx.1], by linarith [hx.2]⟩)
    have s3 := stretch (p := δ + (r + η)) (q := T) ha le_rfl
      (hc.mono (Icc_subset_Icc (by linarith) le_rfl))
      (fun x hx => hd x ⟨by linarith [hx.1], hx.2⟩)
      (s2 _ ⟨by linarith, le_rfl⟩)
      (fun x hx => by rw [add_zero]; exact hb' x ⟨by linarith [hx.1], hx.2⟩ (Or.inr (by linarith [hx.1])))
    intro x hx
    rcases le_total x δ with h1 | h1
    · refine (s1 x ⟨hx.1, h1⟩).trans ?_
      rw [sub_zero, zero_mul, add_zero]
      exact mul_le_mul_of_nonneg_right (by nlinarith) (Real.exp_pos _).le
    · have e0 : (1 : ℝ) ≤ Real.exp (a * δ) := Real.one_le_exp (by positivity)
      rcases le_total x (δ + (r + η)) with h2 | h2
      · refine (s2 x ⟨h1, h2⟩).trans ?_
        rw [sub_zero, zero_mul, add_zero, show a * x = a * δ + a * (x - δ) by ring, Real.exp_add, ← mul_assoc]
        refine mul_le_mul_of_nonneg_right ?_ (Real.exp_pos _).le
        have : ε * (x - δ) ≤ ε * (r + η) * Real.exp (a * δ) := by
          have h3 : ε * (x - δ) ≤ ε * (r + η) := mul_le_mul_of_nonneg_left (by linarith) hε
          have h4 : 0 ≤ ε * (r + η) := by positivity
          nlinarith
        linarith
      · refine (s3 x ⟨h2, hx.2⟩).trans ?_
        rw [sub_zero, zero_mul, add_zero, zero_mul, add_zero,
          show a * x = a * δ + a * (r + η) + a * (x - (δ + (r + η))) by ring, Real.exp_add, Real.exp_add, ← mul_assoc]
        refine mul_le_mul_of_nonneg_right ?_ (Real.exp_pos _).le
        rw [show δ + (r + η) - δ = r + η by ring, ← mul_assoc]
        refine mul_le_mul_of_nonneg_right ?_ (Real.exp_pos _).le
        have h4 : 0 ≤ ε * (r + η) := by positivity
        nlinarith
  intro x hx
  have hlim : Filter.Tendsto (fun η => (d + ε * (r + η)) * Real.exp (a * x)) (nhdsWithin 0 (Ioi 0))
      (nhds ((d + ε * r) * Real.exp (a * x))) := by
    have : Continuous fun η => (d + ε * (r + η)) * Real.exp (a * x) := by fun_prop
    have := this.tendsto 0
    rw [add_zero] at this
    exact this.mono_left nhdsWithin_le_nhds
  refine ge_of_tendsto hlim ?_
  filter_upwards [Ioc_mem_nhdsGT (show (0 : ℝ) < T - (δ + r) by linarith)] with η hη
  exact key η hη.1 (by linarith [hη.2]) x hx

/-- Two solutions of `x' = A x + v + Γ s` for controls that agree outside a window and differ by at most two inside
of it. -/
theorem drift (N M : ℕ) (A G : ℕ → ℕ → ℝ) (T δ r d a g : ℝ) (v φ ψ s w : ℝ → ℕ → ℝ)
    (ha : 0 ≤ a) (hA : ∀ n < N, ∑ j ∈ range N, |A n j| ≤ a)
    (hg : 0 ≤ g) (hG : ∀ n < N, ∑ m ∈ range M, |G n m| ≤ g)
    (hδ : 0 ≤ δ) (hr : 0 ≤ r) (hT : δ + r < T) (hd0 : 0 ≤ d)
    (h0 : ∀ n < N, |φ 0 n - ψ 0 n| ≤ d)
    (c1 : ∀ n < N, ContinuousOn (fun τ => φ τ n) (Icc 0 T))
    (c2 : ∀ n < N, ContinuousOn (fun τ => ψ τ n) (Icc 0 T))
    (d1 : ∀ τ ∈ Ico 0 T, ∀ n < N, HasDerivWithinAt (fun τ => φ τ n)
      (∑ j ∈ range N, A n j * φ τ j + v τ n + ∑ m ∈ range M, G n m * s τ m) (Ici τ) τ)
    (d2 : ∀ τ ∈ Ico 0 T, ∀ n < N, HasDerivWithinAt (fun τ => ψ τ n)
      (∑ j ∈ range N, A n j * ψ τ j + v τ n + ∑ m ∈ range M, G n m * w τ m) (Ici τ) τ)
    (hs : ∀ τ ∈ Ico 0 T, ∀ m < M, |s τ m - w τ m| ≤ 2)
    (hs' : ∀ τ ∈ Ico 0 T, τ < δ ∨ δ + r < τ → ∀ m < M, s τ m = w τ m) :
    ∀ τ ∈ Icc 0 T, ∀ n < N, |φ τ n - ψ τ n| ≤ (d + 2 * g * r) * Real.exp (a * τ) := by
  let f : ℝ → Fin N → ℝ := fun τ i => φ τ i - ψ τ i
  let f' : ℝ → Fin N → ℝ := fun τ i =>
    ∑ j ∈ range N, A i j * (φ τ j - ψ τ j) + ∑ m ∈ range M, G i m * (s τ m - w τ m)
  have hd : ∀ τ ∈ Ico 0 T, HasDerivWithinAt f (f' τ) (Ici τ) τ := by
    intro τ hτ
    rw [hasDerivWithinAt_pi]
    intro i
    refine ((d1 τ hτ i i.2).sub (d2 τ hτ i i.2)).congr_deriv ?_
    show _ = ∑ j ∈ range N, A i j * (φ τ j - ψ τ j) + ∑ m ∈ range M, G i m * (s τ m - w τ m)
    simp only [mul_sub, Finset.sum_sub_distrib]
    ring
  have first : ∀ τ (i : Fin N), |∑ j ∈ range N, A i j * (φ τ j - ψ τ j)| ≤ a * ‖f τ‖ := by
    intro τ i
    refine (Finset.abs_sum_le_sum_abs _ _).trans ?_
    refine le_trans ?_ (mul_le_mul_of_nonneg_right (hA i i.2) (norm_nonneg _))
    rw [Finset.sum_mul]
    refine Finset.sum_le_sum fun j hj => ?_
    rw [abs_mul]
    refine mul_le_mul_of_nonneg_left ?_ (abs_nonneg _)
    exact norm_le_pi_norm (f τ) ⟨j, Finset.mem_range.mp hj⟩
  have nf : 0 ≤ a * ‖f 0‖ := by positivity
  have hb : ∀ τ ∈ Ico 0 T, ‖f' τ‖ ≤ a * ‖f τ‖ + 2 * g := by
    intro τ hτ
    rw [pi_norm_le_iff_of_nonneg (by positivity)]
    intro i
    refine (abs_add_le _ _).trans (add_le_add (first τ i) ?_)
    refine (Finset.abs_sum_le_sum_abs _ _).trans ?_
    refine le_trans ?_ (show (∑ m ∈ range M, |G i m|) * 2 ≤ 2 * g by linarith [hG i i.2])
    rw [Finset.sum_mul]
    refine Finset.sum_le_sum fun m hm => ?_
    rw [abs_mul]
    exact mul_le_mul_of_nonneg_left (hs τ hτ m (Finset.mem_range.mp hm)) (abs_nonneg _)
  have hb' : ∀ τ ∈ Ico 0 T, τ < δ ∨ δ + r < τ → ‖f' τ‖ ≤ a * ‖f τ‖ := by
    intro τ hτ hw
    rw [pi_norm_le_iff_of_nonneg (by positivity)]
    intro i
    have : f' τ i = ∑ j ∈ range N, A i j * (φ τ j - ψ τ j) := by
      show _ + ∑ m ∈ range M, G i m * (s τ m - w τ m) = _
      have e : ∑ m ∈ range M, G i m * (s τ m - w τ m) = 0 := Finset.sum_eq_zero fun m hm => by
        rw [hs' τ hτ hw m (Finset.mem_range.mp hm), sub_self, mul_zero]
      rw [e, add_zero]
    rw [this]
    exact first τ i
  have hc : ContinuousOn f (Icc 0 T) := by
    rw [continuousOn_pi]
    exact fun i => (c1 i i.2).sub (c2 i i.2)
  have := window ha (by positivity : (0 : ℝ) ≤ 2 * g) hδ hr hT hc hd
    ((pi_norm_le_iff_of_nonneg hd0).mpr fun i => h0 i i.2) hb hb'
  intro τ hτ n hn
  exact (norm_le_pi_norm (f τ) ⟨n, hn⟩).trans (this τ hτ)

end Cbadc.ClosedLoop
