import Mathlib.Analysis.ODE.Gronwall
import Mathlib.Analysis.Calculus.Deriv.Prod
import Mathlib.Analysis.SpecialFunctions.Exponential
import Mathlib.Analysis.SpecialFunctions.Trigonometric.Deriv
import Mathlib.Topology.Algebra.Module.FiniteDimension
import Mathlib.LinearAlgebra.Matrix.ToLin
import Verif.Model.PreComputed

/-! # Linear differential equations: uniqueness, superposition, exponentials, sinusoids -/

namespace Cbadc.Simulate
open Cbadc.Analog Set Finset

/-- solutions of `x' = A x + v` are determined by their start -/
theorem linear_unique (N : ℕ) (A : ℕ → ℕ → ℝ) (T : ℝ) (v φ ψ : ℝ → ℕ → ℝ)
    (h0 : ∀ n < N, φ 0 n = ψ 0 n)
    (c1 : ∀ n < N, ContinuousOn (fun τ => φ τ n) (Icc 0 T))
    (c2 : ∀ n < N, ContinuousOn (fun τ => ψ τ n) (Icc 0 T))
    (d1 : ∀ τ ∈ Ico 0 T, ∀ n < N, HasDerivWithinAt (fun τ => φ τ n) (dot N A (φ τ) n + v τ n) (Ici τ) τ)
    (d2 : ∀ τ ∈ Ico 0 T, ∀ n < N, HasDerivWithinAt (fun τ => ψ τ n) (dot N A (ψ τ) n + v τ n) (Ici τ) τ) :
    ∀ τ ∈ Icc 0 T, ∀ n < N, φ τ n = ψ τ n := by
  let D : ℝ → Fin N → ℝ := fun τ i => φ τ i - ψ τ i
  let L : (Fin N → ℝ) →L[ℝ] (Fin N → ℝ) := LinearMap.toContinuousLinearMap (Matrix.mulVecLin (toM N N A))
  have hcont : ContinuousOn D (Icc 0 T) := by
    rw [continuousOn_pi]
    exact fun i => (c1 i i.2).sub (c2 i i.2)
  have hder : ∀ τ ∈ Ico 0 T, HasDerivWithinAt D (L (D τ)) (Ici τ) τ := by
    intro τ hτ
    rw [hasDerivWithinAt_pi]
    intro i
    refine ((d1 τ hτ i i.2).sub (d2 τ hτ i i.2)).congr_deriv ?_
    show _ = (toM N N A).mulVec (D τ) i
    unfold Matrix.mulVec dotProduct dot
    rw [Finset.sum_range, Finset.sum_range, add_sub_add_right_eq_sub, ← Finset.sum_sub_distrib]
    refine Finset.sum_congr rfl fun c _ => ?_
    show A i c * φ τ c - A i c * ψ τ c = A i c * (φ τ c - ψ τ c)
    ring
  have hb := norm_le_gronwallBound_of_norm_deriv_right_le (f := D) (f' := fun τ => L (D τ)) (δ := 0) (K := ‖L‖)
    (ε := 0) hcont hder (by
      have : D 0 = 0 := by
        funext i
        show φ 0 i - ψ 0 i = 0
        rw [h0 i i.2, sub_self]
      rw [this, norm_zero]) (fun τ _ => by rw [add_zero]; exact L.le_opNorm _)
  intro τ hτ n hn
  have := hb τ hτ
  rw [gronwallBound_ε0_δ0] at this
  have h : D τ = 0 := by rw [← norm_le_zero_iff]; exact this
  have h' := congrFun h ⟨n, hn⟩
  exact sub_eq_zero.mp h'

section
attribute [local instance] Matrix.linftyOpNormedRing Matrix.linftyOpNormedAlgebra

/-- the matrix exponential solves the homogeneous equation -/
theorem exp_deriv (g : Sys ℝ) (x : ℕ → ℝ) (τ : ℝ) (n : ℕ) (hn : n < g.N) :
    HasDerivAt (fun τ => matVec (expAT g τ) x n) (dot g.N g.A (matVec (expAT g τ) x) n) τ := by
  have h := hasDerivAt_exp_smul_const' (𝕂 := ℝ) (toM g.N g.N g.A) τ
  have hent : ∀ c : Fin g.N, HasDerivAt (fun τ => expAT g τ ⟨n, hn⟩ c)
      ((toM g.N g.N g.A * expAT g τ) ⟨n, hn⟩ c) τ := by
    intro c
    let ev : Matrix (Fin g.N) (Fin g.N) ℝ →ₗ[ℝ] ℝ :=
      { toFun := fun X => X ⟨n, hn⟩ c, map_add' := fun _ _ => rfl, map_smul' := fun _ _ => rfl }
    exact (LinearMap.toContinuousLinearMap ev).hasFDerivAt.comp_hasDerivAt τ h
  have hs := HasDerivAt.fun_sum (u := Finset.univ) (fun c _ => (hent c).mul_const (x c))
  have e1 : (fun τ => matVec (expAT g τ) x n) = fun τ => ∑ c : Fin g.N, expAT g τ ⟨n, hn⟩ c * x c := by
    funext τ
    unfold matVec
    rw [dif_pos hn]
  rw [e1]
  refine hs.congr_deriv ?_
  unfold dot
  rw [Finset.sum_range]
  simp only [Matrix.mul_apply, Finset.sum_mul]
  rw [Finset.sum_comm]
  refine Finset.sum_congr rfl fun k _ => ?_
  unfold matVec
  rw [dif_pos k.2, Finset.mul_sum]
  refine Finset.sum_congr rfl fun c _ => ?_
  show g.A n k * _ * _ = _
  ring

theorem exp_zero (g : Sys ℝ) (x : ℕ → ℝ) (n : ℕ) (hn : n < g.N) : matVec (expAT g 0) x n = x n := by
  unfold matVec expAT
  rw [dif_pos hn, zero_smul, NormedSpace.exp_zero]
  rw [Finset.sum_eq_single ⟨n, hn⟩]
  · simp
  · intro b _ hb
    rw [Matrix.one_apply_ne (fun h => hb h.symm), zero_mul]
  · intro h; exact absurd (Finset.mem_univ _) h

end

/-- amplitude-phase form of a complex amplitude -/
theorem polar (H : ℂ) (θ : ℝ) :
    ‖H‖ * Real.sin (θ + H.arg) = H.re * Real.sin θ + H.im * Real.cos θ := by
  rw [Real.sin_add]
  have h1 : ‖H‖ * Real.cos H.arg = H.re := Complex.norm_mul_cos_arg H
  have h2 : ‖H‖ * Real.sin H.arg = H.im := Complex.norm_mul_sin_arg H
  calc ‖H‖ * (Real.sin θ * Real.cos H.arg + Real.cos θ * Real.sin H.arg)
      = (‖H‖ * Real.cos H.arg) * Real.sin θ + (‖H‖ * Real.sin H.arg) * Real.cos θ := by ring
    _ = _ := by rw [h1, h2]

/-- the steady-state response to a sinusoid solves the equation -/
theorem sine_deriv (N : ℕ) (A : ℕ → ℕ → ℝ) (b : ℕ → ℝ) (ω a p : ℝ) (H : ℕ → ℂ)
    (hH : ∀ n < N, Complex.I * ω * H n = (∑ c ∈ range N, (A n c : ℂ) * H c) + b n) (t : ℝ) (n : ℕ) (hn : n < N) :
    HasDerivAt (fun t => ‖H n‖ * a * Real.sin (ω * t + ((H n).arg + p)))
      (dot N A (fun c => ‖H c‖ * a * Real.sin (ω * t + ((H c).arg + p))) n +
        b n * (a * Real.sin (ω * t + p))) t := by
  have hform : ∀ c t, ‖H c‖ * a * Real.sin (ω * t + ((H c).arg + p)) =
      a * ((H c).re * Real.sin (ω * t + p) + (H c).im * Real.cos (ω * t + p)) := by
    intro c t
    rw [← polar, show ω * t + ((H c).arg + p) = ω * t + p + (H c).arg by ring]
    ring
  have hre := congrArg Complex.re (hH n hn)
  have him := congrArg Complex.im (hH n hn)
  simp only [Complex.mul_re, Complex.mul_im, Complex.I_re, Complex.I_im, Complex.ofReal_re, Complex.ofReal_im,
    Complex.add_re, Complex.add_im, Complex.re_sum, Complex.im_sum, zero_mul, one_mul, mul_zero, sub_zero,
    zero_sub, add_zero, zero_add] at hre him
  have hlin : HasDerivAt (fun t : ℝ => ω * t + p) ω t := by
    simpa using ((hasDerivAt_id t).const_mul ω).add_const p
  have hs := hlin.sin
  have hc := hlin.cos
  have hd := ((hs.const_mul (H n).re).add (hc.const_mul (H n).im)).const_mul a
  have e1 : (fun t => ‖H n‖ * a * Real.sin (ω * t + ((H n).arg + p))) =
      fun t => a * ((H n).re * Real.sin (ω * t + p) + (H n).im * Real.cos (ω * t + p)) := by
    funext t; exact hform n t
  rw [e1]
  refine hd.congr_deriv ?_
  unfold dot
  simp only [hform]
  have e2 : ∑ c ∈ range N, A n c * (a * ((H c).re * Real.sin (ω * t + p) + (H c).im * Real.cos (ω * t + p))) =
      a * Real.sin (ω * t + p) * (∑ c ∈ range N, A n c * (H c).re) +
        a * Real.cos (ω * t + p) * ∑ c ∈ range N, A n c * (H c).im := by
    rw [Finset.mul_sum, Finset.mul_sum, ← Finset.sum_add_distrib]
    exact Finset.sum_congr rfl fun c _ => by ring
  rw [e2, ← him]
  have e3 : ∑ c ∈ range N, A n c * (H c).re = -(ω * (H n).im) - b n := by linarith
  rw [e3]
  ring

end Cbadc.Simulate
