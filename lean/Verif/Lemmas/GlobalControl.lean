import Mathlib.MeasureTheory.Integral.DivergenceTheorem
import Mathlib.Analysis.Normed.Algebra.MatrixExponential
import Mathlib.Tactic.Linarith
import Mathlib.Tactic.Module
import Verif.Lemmas.Flow
import Verif.Model.GlobalControl

/-! # Trajectories with jumps, and the energy of the output -/

namespace Cbadc.Global

open Matrix Set Spec MeasureTheory

variable {N P : ℕ} {X : Matrix (Fin N) (Fin N) ℝ} {v w : ℝ → Fin N → ℝ} {a b : ℝ} {x y : ℝ → Fin N → ℝ}

theorem Spec.Solves.congr (h : Solves X v a b x) {J : Set ℝ} (hJ : J.Countable) (hv : ∀ t ∈ Ioo a b \ J, v t = w t) :
    Solves X w a b x := by
  obtain ⟨D, hD, hd⟩ := h.ode
  refine ⟨h.cont, D ∪ J, hD.union hJ, fun t ht => ?_⟩
  rw [← hv t ⟨ht.1, fun h => ht.2 (Or.inr h)⟩]
  exact hd t ⟨ht.1, fun h => ht.2 (Or.inl h)⟩

theorem Spec.Solves.add (hx : Solves X v a b x) (hy : Solves X w a b y) :
    Solves X (fun t => v t + w t) a b (fun t => x t + y t) := by
  obtain ⟨D, hD, hd⟩ := hx.ode
  obtain ⟨E, hE, he⟩ := hy.ode
  refine ⟨hx.cont.add hy.cont, D ∪ E, hD.union hE, fun t ht => ?_⟩
  refine ((hd t ⟨ht.1, fun h => ht.2 (Or.inl h)⟩).add (he t ⟨ht.1, fun h => ht.2 (Or.inr h)⟩)).congr_deriv ?_
  rw [Matrix.mulVec_add]
  abel

theorem Spec.Solves.smul (hx : Solves X v a b x) (c : ℝ) : Solves X (fun t => c • v t) a b (fun t => c • x t) := by
  obtain ⟨D, hD, hd⟩ := hx.ode
  refine ⟨hx.cont.const_smul c, D, hD, fun t ht => ((hd t ht).const_smul c).congr_deriv ?_⟩
  rw [Matrix.mulVec_smul, smul_add]

theorem solves_zero : Solves X (fun _ => 0) a b (fun _ => 0) := by
  refine ⟨continuousOn_const, ∅, countable_empty, fun t _ => (hasDerivAt_const t _).congr_deriv ?_⟩
  rw [Matrix.mulVec_zero, add_zero]

theorem solves_sum {ι : Type*} (s : Finset ι) (v : ι → ℝ → Fin N → ℝ) (x : ι → ℝ → Fin N → ℝ)
    (h : ∀ i ∈ s, Solves X (v i) a b (x i)) :
    Solves X (fun t => ∑ i ∈ s, v i t) a b (fun t => ∑ i ∈ s, x i t) := by
  classical
  induction s using Finset.induction with
  | empty => simpa using solves_zero
  | insert i s hi ih =>
    have := (h i (Finset.mem_insert_self _ _)).add (ih fun j hj => h j (Finset.mem_insert_of_mem hj))
    simpa only [Finset.sum_insert hi] using this

theorem solves_exp (X : Matrix (Fin N) (Fin N) ℝ) (x0 : Fin N → ℝ) (c a b : ℝ) :
    Solves X (fun _ => 0) a b (fun t => NormedSpace.exp ((t - c) • X) *ᵥ x0) := by
  have hd : ∀ t, HasDerivAt (fun t : ℝ => NormedSpace.exp ((t - c) • X) *ᵥ x0)
      (X *ᵥ (NormedSpace.exp ((t - c) • X) *ᵥ x0)) t := fun t => by
    have := (Filter.hasDerivAt_exp_mulVec X x0 (t - c)).scomp t ((hasDerivAt_id t).sub_const c)
    exact this.congr_deriv (one_smul _ _)
  refine ⟨fun t _ => (hd t).continuousAt.continuousWithinAt, ∅, countable_empty, fun t _ => ?_⟩
  rw [add_zero]
  exact hd t

/-- a continuous function whose derivative vanishes but for countably many points is constant -/
theorem const_of_deriv_zero {E : Type*} [NormedAddCommGroup E] [NormedSpace ℝ E] [CompleteSpace E] {f : ℝ → E} {D : Set ℝ}
    (hD : D.Countable) (hc : ContinuousOn f (Icc a b)) (hd : ∀ t ∈ Ioo a b \ D, HasDerivAt f 0 t) :
    ∀ t ∈ Icc a b, f t = f a := by
  intro t ht
  have := integral_eq_of_hasDerivAt_off_countable_of_le f (fun _ => 0) ht.1 hD
    (hc.mono (Icc_subset_Icc_right ht.2)) (fun s hs => hd s ⟨⟨hs.1.1, hs.1.2.trans_le ht.2⟩, hs.2⟩)
    intervalIntegrable_const
  rw [intervalIntegral.integral_zero] at this
  exact (sub_eq_zero.1 this.symm)

section
attribute [local instance] Matrix.linftyOpNormedRing Matrix.linftyOpNormedAlgebra

theorem hasDerivAt_exp_neg_mulVec (X : Matrix (Fin N) (Fin N) ℝ) {z : ℝ → Fin N → ℝ} {t : ℝ} (hz : HasDerivAt z (X *ᵥ z t) t) :
    HasDerivAt (fun t : ℝ => NormedSpace.exp (t • -X) *ᵥ z t) 0 t := by
  have h := hasDerivAt_exp_smul_const' (𝕂 := ℝ) (-X) t
  have hc := hasDerivAt_exp_smul_const (𝕂 := ℝ) (-X) t
  rw [hasDerivAt_pi]
  intro i
  have hE : ∀ j, HasDerivAt (fun t : ℝ => NormedSpace.exp (t • -X) i j) ((NormedSpace.exp (t • -X) * -X) i j) t := fun j => by
    let ev : Matrix (Fin N) (Fin N) ℝ →ₗ[ℝ] ℝ :=
      { toFun := fun Y => Y i j
        map_add' := fun Y Z => rfl
        map_smul' := fun c Y => rfl }
    exact (LinearMap.toContinuousLinearMap ev).hasFDerivAt.comp_hasDerivAt t hc
  have hZ := fun j => (hasDerivAt_pi.1 hz) j
  have hs : HasDerivAt (fun t => ∑ j, NormedSpace.exp (t • -X) i j * z t j) _ t :=
    HasDerivAt.fun_sum fun j _ => (hE j).mul (hZ j)
  refine hs.congr_deriv ?_
  rw [Finset.sum_add_distrib]
  have e1 : ∑ j, (NormedSpace.exp (t • -X) * -X) i j * z t j = -(((NormedSpace.exp (t • -X)) * X) *ᵥ z t) i := by
    rw [Matrix.mul_neg]
    simp [Matrix.mulVec, dotProduct]
  have e2 : ∑ j, NormedSpace.exp (t • -X) i j * (X *ᵥ z t) j = (((NormedSpace.exp (t • -X)) * X) *ᵥ z t) i := by
    rw [← Matrix.mulVec_mulVec]
    rfl
  rw [e1, e2, neg_add_cancel]
  rfl

theorem continuous_exp_smul (X : Matrix (Fin N) (Fin N) ℝ) : Continuous fun t : ℝ => NormedSpace.exp (t • X) :=
  continuous_iff_continuousAt.2 fun t => (hasDerivAt_exp_smul_const (𝕂 := ℝ) X t).continuousAt

end

theorem solves_unique (hx : Solves X v a b x) (hy : Solves X v a b y) (h0 : x a = y a) : ∀ t ∈ Icc a b, x t = y t := by
  have hz := (hx.add (hy.smul (-1))).congr (w := fun _ => 0) countable_empty fun t _ => by
    rw [neg_one_smul, add_neg_cancel]
  obtain ⟨D, hD, hd⟩ := hz.ode
  have hc : ContinuousOn (fun t : ℝ => NormedSpace.exp (t • -X) *ᵥ (x t + (-1 : ℝ) • y t)) (Icc a b) := by
    refine continuousOn_pi.2 fun i => ?_
    show ContinuousOn (fun t : ℝ => ∑ j, NormedSpace.exp (t • -X) i j * (x t + (-1 : ℝ) • y t) j) (Icc a b)
    refine continuousOn_finsetSum _ fun j _ => ?_
    exact ((((continuous_exp_smul (-X)).matrix_elem i j)).continuousOn).mul
      ((continuousOn_pi.1 hz.cont) j)
  have h := const_of_deriv_zero hD hc fun t ht => hasDerivAt_exp_neg_mulVec X
    (z := fun t => x t + (-1 : ℝ) • y t) (by simpa using hd t ht)
  intro t ht
  have h1 := h t ht
  have h2 : x a + (-1 : ℝ) • y a = 0 := by rw [h0, neg_one_smul, add_neg_cancel]
  simp only [h2, Matrix.mulVec_zero] at h1
  have h3 := congrArg (fun z => NormedSpace.exp (t • X) *ᵥ z) h1
  have h4 := Filter.exp_neg_mul (-X) t
  rw [neg_neg] at h4
  simp only [Matrix.mulVec_mulVec, h4, Matrix.one_mulVec, Matrix.mulVec_zero] at h3
  rw [neg_one_smul] at h3
  exact add_neg_eq_zero.1 h3

/-- the accumulated value is the integral -/
theorem Spec.Accumulates.integral {q J : ℝ → ℝ} (h : Accumulates q a b J) (hab : a ≤ b) (hq : ContinuousOn q (Icc a b)) :
    J b = ∫ t in a..b, q t := by
  obtain ⟨D, hD, hd⟩ := h.deriv
  rw [integral_eq_of_hasDerivAt_off_countable_of_le J q hab hD h.cont hd (hq.intervalIntegrable_of_Icc hab), h.start, sub_zero]

theorem cont_mulVec (C : Matrix (Fin P) (Fin N) ℝ) (hx : ContinuousOn x (Icc a b)) :
    ContinuousOn (fun t => C *ᵥ x t) (Icc a b) :=
  (Filter.lin C).continuous.comp_continuousOn hx

theorem cont_dot {p q : ℝ → Fin P → ℝ} (hp : ContinuousOn p (Icc a b)) (hq : ContinuousOn q (Icc a b)) :
    ContinuousOn (fun t => p t ⬝ᵥ q t) (Icc a b) :=
  continuousOn_finsetSum _ fun i _ => ((continuousOn_pi.1 hp) i).mul ((continuousOn_pi.1 hq) i)

section
attribute [local instance] Matrix.linftyOpNormedRing Matrix.linftyOpNormedAlgebra

theorem hasDerivAt_exp_entry (X : Matrix (Fin N) (Fin N) ℝ) (i j : Fin N) (t : ℝ) :
    HasDerivAt (fun t : ℝ => NormedSpace.exp (t • X) i j) ((X * NormedSpace.exp (t • X)) i j) t := by
  let ev : Matrix (Fin N) (Fin N) ℝ →ₗ[ℝ] ℝ :=
    { toFun := fun Y => Y i j
      map_add' := fun Y Z => rfl
      map_smul' := fun c Y => rfl }
  exact (LinearMap.toContinuousLinearMap ev).hasFDerivAt.comp_hasDerivAt t (hasDerivAt_exp_smul_const' (𝕂 := ℝ) X t)

end

/-- the matrix exponential is one plus `X` times its integral -/
theorem exp_integral {X : Matrix (Fin N) (Fin N) ℝ} {F : Fin N → Fin N → ℝ → ℝ} {T : ℝ}
    (hF : ∀ i j, Accumulates (fun t => NormedSpace.exp (t • X) i j) 0 T (F i j)) {t : ℝ} (ht : t ∈ Icc 0 T) (i j : Fin N) :
    NormedSpace.exp (t • X) i j = (1 : Matrix (Fin N) (Fin N) ℝ) i j + ∑ l, X i l * F l j t := by
  choose D hD hd using fun l => (hF l j).deriv
  have h := const_of_deriv_zero (f := fun t : ℝ => NormedSpace.exp (t • X) i j - ∑ l, X i l * F l j t) (D := ⋃ l, D l)
    (countable_iUnion hD) (((((continuous_exp_smul X).matrix_elem i j)).continuousOn).sub
      (continuousOn_finsetSum _ fun l _ => continuousOn_const.mul (hF l j).cont)) (fun s hs => by
      have h1 := hasDerivAt_exp_entry X i j s
      have h2 : HasDerivAt (fun t => ∑ l, X i l * F l j t) (∑ l, X i l * NormedSpace.exp (s • X) l j) s :=
        HasDerivAt.fun_sum fun l _ => (hd l s ⟨hs.1, fun h => hs.2 (mem_iUnion.2 ⟨l, h⟩)⟩).const_mul _
      refine (h1.sub h2).congr_deriv ?_
      rw [Matrix.mul_apply, sub_self]) t ht
  have h0 : ∑ l, X i l * F l j 0 = 0 := Finset.sum_eq_zero fun l _ => by rw [(hF l j).start, mul_zero]
  simp only [h0, sub_zero, zero_smul, NormedSpace.exp_zero] at h
  linarith

end Cbadc.Global
