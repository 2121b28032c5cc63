import Mathlib.Analysis.Normed.Algebra.MatrixExponential
import Mathlib.Analysis.ODE.Gronwall
import Mathlib.Analysis.SpecialFunctions.Exponential
import Mathlib.Analysis.Calculus.Deriv.Shift
import Mathlib.Topology.Algebra.Module.FiniteDimension
import Mathlib.LinearAlgebra.Matrix.ToLin
import Verif.Model.FilterCoefficients

/-! # Linear differential equations in vector form -/

namespace Cbadc.Filter

open Matrix Set Spec

variable {N : ℕ} {X : Matrix (Fin N) (Fin N) ℝ} {v w : ℝ → Fin N → ℝ} {a b : ℝ} {x y : ℝ → Fin N → ℝ}

/-- multiplication by a matrix as a continuous linear map -/
noncomputable def lin {n m : ℕ} (X : Matrix (Fin n) (Fin m) ℝ) : (Fin m → ℝ) →L[ℝ] (Fin n → ℝ) :=
  LinearMap.toContinuousLinearMap (Matrix.mulVecLin X)

theorem lin_apply {n m : ℕ} (X : Matrix (Fin n) (Fin m) ℝ) (x : Fin m → ℝ) : lin X x = X *ᵥ x := rfl

theorem Spec.Flow.congr (h : Flow X v a b x) (hv : ∀ t ∈ Ico a b, v t = w t) : Flow X w a b x :=
  ⟨h.cont, fun t ht => by rw [← hv t ht]; exact h.ode t ht⟩

theorem Spec.Flow.add (hx : Flow X v a b x) (hy : Flow X w a b y) :
    Flow X (fun t => v t + w t) a b (fun t => x t + y t) := by
  refine ⟨hx.cont.add hy.cont, fun t ht => ((hx.ode t ht).add (hy.ode t ht)).congr_deriv ?_⟩
  rw [Matrix.mulVec_add]
  abel

theorem Spec.Flow.smul (hx : Flow X v a b x) (c : ℝ) : Flow X (fun t => c • v t) a b (fun t => c • x t) := by
  refine ⟨hx.cont.const_smul c, fun t ht => ((hx.ode t ht).const_smul c).congr_deriv ?_⟩
  rw [Matrix.mulVec_smul, smul_add]

theorem flow_zero : Flow X (fun _ => 0) a b (fun _ => 0) := by
  refine ⟨continuousOn_const, fun t _ => (hasDerivWithinAt_const t _ _).congr_deriv ?_⟩
  rw [Matrix.mulVec_zero, add_zero]

theorem flow_sum {ι : Type*} (s : Finset ι) (v : ι → ℝ → Fin N → ℝ) (x : ι → ℝ → Fin N → ℝ)
    (h : ∀ i ∈ s, Flow X (v i) a b (x i)) :
    Flow X (fun t => ∑ i ∈ s, v i t) a b (fun t => ∑ i ∈ s, x i t) := by
  classical
  induction s using Finset.induction with
  | empty => simpa using flow_zero
  | insert i s hi ih =>
    have := (h i (Finset.mem_insert_self _ _)).add (ih fun j hj => h j (Finset.mem_insert_of_mem hj))
    simpa only [Finset.sum_insert hi] using this

theorem flow_unique (hx : Flow X v a b x) (hy : Flow X v a b y) (h0 : x a = y a) :
    ∀ t ∈ Icc a b, x t = y t := by
  have hcont : ContinuousOn (fun t => x t - y t) (Icc a b) := hx.cont.sub hy.cont
  have hder : ∀ t ∈ Ico a b, HasDerivWithinAt (fun t => x t - y t) (lin X (x t - y t)) (Ici t) t := by
    intro t ht
    refine ((hx.ode t ht).sub (hy.ode t ht)).congr_deriv ?_
    rw [lin_apply, Matrix.mulVec_sub]
    abel
  have hb := norm_le_gronwallBound_of_norm_deriv_right_le (f := fun t => x t - y t)
    (f' := fun t => lin X (x t - y t)) (δ := 0) (K := ‖lin X‖) (ε := 0) hcont hder
    (by rw [h0, sub_self, norm_zero]) (fun t _ => by rw [add_zero]; exact (lin X).le_opNorm _)
  intro t ht
  have := hb t ht
  rw [gronwallBound_ε0_δ0] at this
  exact sub_eq_zero.1 (norm_le_zero_iff.1 this)

section
attribute [local instance] Matrix.linftyOpNormedRing Matrix.linftyOpNormedAlgebra

theorem hasDerivAt_exp_mulVec (X : Matrix (Fin N) (Fin N) ℝ) (x0 : Fin N → ℝ) (t : ℝ) :
    HasDerivAt (fun t : ℝ => NormedSpace.exp (t • X) *ᵥ x0) (X *ᵥ (NormedSpace.exp (t • X) *ᵥ x0)) t := by
  have h := hasDerivAt_exp_smul_const' (𝕂 := ℝ) X t
  let ev : Matrix (Fin N) (Fin N) ℝ →ₗ[ℝ] (Fin N → ℝ) :=
    { toFun := fun Y => Y *ᵥ x0
      map_add' := fun Y Z => Matrix.add_mulVec Y Z x0
      map_smul' := fun c Y => Matrix.smul_mulVec c Y x0 }
  refine ((LinearMap.toContinuousLinearMap ev).hasFDerivAt.comp_hasDerivAt t h).congr_deriv ?_
  show (X * NormedSpace.exp (t • X)) *ᵥ x0 = _
  rw [Matrix.mulVec_mulVec]

theorem exp_zero_smul (X : Matrix (Fin N) (Fin N) ℝ) : NormedSpace.exp ((0 : ℝ) • X) = 1 := by
  rw [zero_smul, NormedSpace.exp_zero]

theorem exp_neg_mul (X : Matrix (Fin N) (Fin N) ℝ) (t : ℝ) :
    NormedSpace.exp (t • -X) * NormedSpace.exp (t • X) = 1 := by
  rw [smul_neg, ← Matrix.exp_add_of_commute _ _ (Commute.refl (t • X)).neg_left, neg_add_cancel, NormedSpace.exp_zero]

end

theorem flow_exp (X : Matrix (Fin N) (Fin N) ℝ) (x0 : Fin N → ℝ) (a b : ℝ) :
    Flow X (fun _ => 0) a b (fun t => NormedSpace.exp (t • X) *ᵥ x0) := by
  refine ⟨fun t _ => (hasDerivAt_exp_mulVec X x0 t).continuousAt.continuousWithinAt, fun t _ => ?_⟩
  rw [add_zero]
  exact (hasDerivAt_exp_mulVec X x0 t).hasDerivWithinAt

/-- time reversal -/
theorem Spec.FlowLeft.reverse {T : ℝ} (h : FlowLeft X v 0 T x) :
    Flow (-X) (fun t => -v (T - t)) 0 T (fun t => x (T - t)) := by
  refine ⟨?_, fun t ht => ?_⟩
  · refine h.cont.comp (continuous_const.sub continuous_id).continuousOn fun t ht => ?_
    exact ⟨by linarith [ht.2], by linarith [ht.1]⟩
  · have h1 := h.ode (T - t) ⟨by linarith [ht.2], by linarith [ht.1]⟩
    have h2 : HasDerivWithinAt (fun t : ℝ => T - t) (-1) (Ici t) t :=
      ((hasDerivAt_id t).const_sub T).hasDerivWithinAt
    refine (h1.scomp t h2 fun s hs => ?_).congr_deriv ?_
    · have : t ≤ s := hs
      show T - s ≤ T - t
      linarith
    · rw [neg_one_smul, neg_add, Matrix.neg_mulVec]

/-- forward in time over a period -/
theorem flow_end {T : ℝ} (hT : 0 ≤ T) (h : Flow X v 0 T x) {ψ : ℝ → Fin N → ℝ} (hψ : Flow X v 0 T ψ) (h0 : ψ 0 = 0) :
    x T = NormedSpace.exp (T • X) *ᵥ x 0 + ψ T := by
  have h1 := (flow_exp X (x 0) 0 T).add hψ
  have h2 := flow_unique h (h1.congr fun t _ => zero_add _) (by
    show x 0 = NormedSpace.exp ((0 : ℝ) • X) *ᵥ x 0 + ψ 0
    rw [exp_zero_smul, Matrix.one_mulVec, h0, add_zero])
  exact h2 T ⟨hT, le_refl _⟩

/-- backward in time over a period -/
theorem flow_start {T : ℝ} (hT : 0 ≤ T) (h : Flow X v 0 T x) {ψ : ℝ → Fin N → ℝ} (hψ : Flow X v 0 T ψ) (h0 : ψ T = 0) :
    x 0 = NormedSpace.exp (T • -X) *ᵥ x T + ψ 0 := by
  have h1 := (h.add (hψ.smul (-1))).congr (w := fun _ => 0) fun t _ => by
    rw [neg_one_smul, add_neg_cancel]
  have h2 := flow_unique h1 (flow_exp X (x 0 + (-1 : ℝ) • ψ 0) 0 T) (by
    rw [exp_zero_smul, Matrix.one_mulVec]) T ⟨hT, le_refl _⟩
  have h3 := congrArg (fun z => NormedSpace.exp (T • -X) *ᵥ z) h2
  rw [Matrix.mulVec_mulVec, exp_neg_mul, Matrix.one_mulVec, h0, smul_zero, add_zero] at h3
  rw [h3]
  simp

end Cbadc.Filter
