import Mathlib.Analysis.Matrix.LDL
import Mathlib.Analysis.Matrix.PosDef
import Mathlib.LinearAlgebra.Matrix.Block
import Mathlib.Probability.Distributions.Gaussian.Real
import Mathlib.Probability.HasLawExists
import Verif.Model.Noise
import Verif.Spec.Noise
import Verif.Lemmas.Bounded

/-! # Cholesky factors, and the box argument with a margin (for C154) -/

namespace Cbadc.Simulate
open Matrix Finset MeasureTheory ProbabilityTheory
open scoped ComplexOrder

variable {P : ℕ}

/-- there is at most one Cholesky factor -/
theorem cholesky_unique {a L L' : Matrix (Fin P) (Fin P) ℝ} (h : IsCholesky a L) (h' : IsCholesky a L') : L = L' := by
  have key : ∀ j : ℕ, ∀ hj : j < P, ∀ i, L i ⟨j, hj⟩ = L' i ⟨j, hj⟩ := by
    intro j
    induction j using Nat.strong_induction_on with
    | _ j ih =>
      intro hj
      have e : ∀ i, L i ⟨j, hj⟩ * L ⟨j, hj⟩ ⟨j, hj⟩ = L' i ⟨j, hj⟩ * L' ⟨j, hj⟩ ⟨j, hj⟩ := by
        intro i
        have h1 : (L * Lᵀ) i ⟨j, hj⟩ = (L' * L'ᵀ) i ⟨j, hj⟩ := by rw [h.prod, h'.prod]
        simp only [mul_apply, transpose_apply] at h1
        rw [← sub_eq_zero, ← Finset.sum_sub_distrib, Finset.sum_eq_single ⟨j, hj⟩] at h1
        · linarith
        · intro k _ hk
          rcases lt_or_gt_of_ne hk with hlt | hgt
          · have hk' : (k : ℕ) < j := hlt
            have e1 := ih k hk' k.2 i
            have e2 := ih k hk' k.2 ⟨j, hj⟩
            simp only [Fin.eta] at e1 e2
            rw [e1, e2, sub_self]
          · rw [h.lower _ _ hgt, h'.lower _ _ hgt, mul_zero, mul_zero, sub_self]
        · simp
      have d : L ⟨j, hj⟩ ⟨j, hj⟩ = L' ⟨j, hj⟩ ⟨j, hj⟩ := by
        have e1 := e ⟨j, hj⟩
        have p1 := h.diag ⟨j, hj⟩
        have p2 := h'.diag ⟨j, hj⟩
        exact (mul_self_inj p1.le p2.le).1 e1
      intro i
      have e1 := e i
      rw [d] at e1
      exact mul_right_cancel₀ (h'.diag ⟨j, hj⟩).ne' e1
  ext i j
  exact key j j.2 i

/-- what is read of a symmetric matrix is the matrix -/
theorem lowerSym_symm {a : Matrix (Fin P) (Fin P) ℝ} (h : aᵀ = a) : lowerSym a = a := by
  ext i j
  unfold lowerSym
  rw [of_apply]
  split_ifs
  · rfl
  · exact congrFun (congrFun h i) j

/-- a Cholesky factor has determinant unequal to zero -/
theorem cholesky_det {a L : Matrix (Fin P) (Fin P) ℝ} (h : IsCholesky a L) : L.det ≠ 0 := by
  rw [det_of_isLowerTriangular L fun i j hij => h.lower i j hij]
  exact Finset.prod_ne_zero_iff.2 fun i _ => (h.diag i).ne'

/-- a matrix has a Cholesky factor exactly if what is read of it is positive definite -/
theorem cholesky_exists (a : Matrix (Fin P) (Fin P) ℝ) : (∃ L, IsCholesky a L) ↔ (lowerSym a).PosDef := by
  constructor
  · rintro ⟨L, h⟩
    rw [← h.prod, ← conjTranspose_eq_transpose_of_trivial]
    refine PosDef.mul_conjTranspose_self L ?_
    rw [vecMul_injective_iff_isUnit, isUnit_iff_isUnit_det]
    exact (cholesky_det h).isUnit
  · intro h
    have hlow : (LDL.lowerInv h).IsLowerTriangular := fun i j hij => LDL.lowerInv_triangular h hij
    have hlow' : (LDL.lower h).IsLowerTriangular := blockTriangular_inv_of_blockTriangular hlow
    have hdet : (LDL.lower h).det ≠ 0 := by
      unfold LDL.lower
      have : IsUnit (LDL.lowerInv h).det := isUnit_det_of_invertible _
      rw [det_nonsing_inv]
      exact (this.ringInverse).ne_zero
    have hne : ∀ i, LDL.lower h i i ≠ 0 := by
      rw [det_of_isLowerTriangular _ hlow', Finset.prod_ne_zero_iff] at hdet
      exact fun i => hdet i (Finset.mem_univ i)
    have hd : ∀ i, 0 < LDL.diagEntries h i := by
      have hp : (LDL.diag h).PosDef := by
        rw [LDL.diag_eq_lowerInv_conj]
        refine h.mul_mul_conjTranspose_same ?_
        rw [vecMul_injective_iff_isUnit]
        exact isUnit_of_invertible _
      intro i
      have := hp.diag_pos (i := i)
      rwa [LDL.diag, diagonal_apply_eq] at this
    obtain ⟨e, he⟩ : ∃ e : Fin P → ℝ, ∀ i, e i = if 0 < LDL.lower h i i then Real.sqrt (LDL.diagEntries h i)
      else -Real.sqrt (LDL.diagEntries h i) := ⟨_, fun _ => rfl⟩
    have he2 : ∀ i, e i * e i = LDL.diagEntries h i := by
      intro i
      rw [he]
      split_ifs
      · exact Real.mul_self_sqrt (hd i).le
      · rw [neg_mul_neg]; exact Real.mul_self_sqrt (hd i).le
    refine ⟨LDL.lower h * diagonal e, fun i j hij => ?_, fun i => ?_, ?_⟩
    · rw [mul_diagonal, show LDL.lower h i j = 0 from hlow' hij, zero_mul]
    · rw [mul_diagonal, he]
      have hs := Real.sqrt_pos.2 (hd i)
      split_ifs with hi
      · exact mul_pos hi hs
      · have := lt_of_le_of_ne (not_lt.1 hi) (hne i)
        nlinarith
    · have hc := LDL.lower_conj_diag h
      rw [conjTranspose_eq_transpose_of_trivial] at hc
      rw [transpose_mul, diagonal_transpose, Matrix.mul_assoc, ← Matrix.mul_assoc (diagonal e), diagonal_mul_diagonal,
        ← Matrix.mul_assoc]
      refine Eq.trans ?_ hc
      rw [LDL.diag]
      exact congrArg₂ _ (congrArg₂ _ rfl (congrArg _ (funext he2))) rfl

theorem cholesky_ok {a L : Matrix (Fin P) (Fin P) ℝ} : cholesky a = .ok L ↔ IsCholesky a L := by
  unfold cholesky
  split_ifs with h
  · rw [Except.ok.injEq]
    exact ⟨fun e => e ▸ h.choose_spec, fun e => cholesky_unique h.choose_spec e⟩
  · exact ⟨fun e => by simp at e, fun e => absurd ⟨L, e⟩ h⟩

/-! ### Covariances -/

variable {Ω : Type} [MeasurableSpace Ω] {μ : Measure Ω} {z : Ω → ℕ → ℕ → ℝ}

/-- linear combinations of white draws -/
theorem white_cov [IsProbabilityMeasure μ] (h : Spec.White μ z) (k l : ℕ) (a b : Fin P → ℝ) :
    cov[fun ω => ∑ c, a c * z ω k c, fun ω => ∑ c, b c * z ω l c; μ] = if k = l then ∑ c, a c * b c else 0 := by
  rw [covariance_fun_sum_fun_sum (fun c : Fin P => (h.sq k c).const_mul (a c)) (fun c : Fin P => (h.sq l c).const_mul (b c))]
  simp only [covariance_const_mul_left, covariance_const_mul_right, h.cov]
  split_ifs with hkl
  · subst hkl
    refine Finset.sum_congr rfl fun c _ => ?_
    rw [Finset.sum_eq_single c]
    · simp [mul_comm]
    · intro d _ hd
      rw [if_neg (by rintro ⟨-, e⟩; exact hd (Fin.ext e.symm))]
      simp
    · simp
  · simp [hkl]

theorem white_mean [IsProbabilityMeasure μ] (h : Spec.White μ z) (k : ℕ) (a : Fin P → ℝ) :
    ∫ ω, ∑ c, a c * z ω k c ∂μ = 0 := by
  rw [integral_finsetSum _ fun (c : Fin P) _ => ((h.sq k c).integrable one_le_two).const_mul _]
  refine Finset.sum_eq_zero fun c _ => ?_
  rw [integral_const_mul, h.mean, mul_zero]

/-- standard normal draws are white -/
theorem white_exists : ∃ (Ω : Type) (_ : MeasurableSpace Ω) (μ : Measure Ω) (_ : IsProbabilityMeasure μ)
    (z : Ω → ℕ → ℕ → ℝ), (∀ k i, HasLaw (fun ω => z ω k i) (gaussianReal 0 1) μ) ∧ Spec.White μ z := by
  obtain ⟨Ω, m, μ, X, -, hl, hi, hp⟩ := exists_iid (ℕ × ℕ) (gaussianReal 0 1)
  have hL : ∀ p, MemLp (X p) 2 μ := fun p => by
    have h1 := memLp_id_gaussianReal' (μ := 0) (v := 1) 2 (by simp)
    rw [← (hl p).map_eq] at h1
    exact h1.comp_of_map (hl p).aemeasurable
  refine ⟨Ω, m, μ, hp, fun ω k i => X (k, i) ω, fun k i => hl (k, i), fun k i => hL (k, i), fun k i => ?_, fun k l i j => ?_⟩
  · rw [(hl (k, i)).integral_eq, integral_id_gaussianReal]
  · by_cases e : k = l ∧ i = j
    · obtain ⟨rfl, rfl⟩ := e
      rw [if_pos ⟨rfl, rfl⟩]
      have := (hl (k, i)).variance_eq
      rw [variance_id_gaussianReal] at this
      rw [← covariance_self (hl (k, i)).aemeasurable] at this
      simpa using this
    · rw [if_neg e]
      exact (hi.indepFun (i := (k, i)) (j := (l, j)) (by rintro h; simp only [Prod.mk.injEq] at h; exact e h)).covariance_eq_zero (hL _) (hL _)

/-! ### The box argument with a margin -/

/-- a state that starts in the box and is pushed towards the other side, at least at rate `δ / T` and at most at rate
`2 k`, ends up at least `δ` inside of the box -/
theorem margin (x x' : ℝ → ℝ) (T k a σ δ : ℝ) (hT : 0 < T) (hδ : 0 ≤ δ) (hk : 0 ≤ k) (hkT : 2 * k * T + δ ≤ 1) (ha : a ≤ 0)
    (hσ : σ = 1 ∨ σ = -1) (hc : ContinuousOn x (Set.Icc 0 T))
    (hd : ∀ t ∈ Set.Ico 0 T, HasDerivWithinAt x (x' t) (Set.Ici t) t) (h0 : 0 ≤ σ * x 0) (h1 : σ * x 0 ≤ 1)
    (hb : ∀ t ∈ Set.Ico 0 T, ∃ r, σ * x' t = a * (σ * x t) + r ∧ r * T ≤ -δ ∧ -(2 * k) ≤ r) : |x T| ≤ 1 - δ := by
  have hwc : ContinuousOn (fun t => σ * x t) (Set.Icc 0 T) := hc.const_smul σ
  have hwd : ∀ t ∈ Set.Ico 0 T, HasDerivWithinAt (fun t => σ * x t) (σ * x' t) (Set.Ici t) t := fun t ht => (hd t ht).const_mul σ
  have hδ1 : δ ≤ 1 := by nlinarith
  have habs : |x T| = |σ * x T| := by
    rcases hσ with h | h <;> rw [h] <;> simp
  rw [habs, abs_le]
  have hTm : T ∈ Set.Icc 0 T := ⟨hT.le, le_refl _⟩
  constructor
  · refine le_of_forall_pos_lt_add fun ε hε => ?_
    have := Bounded.barrier (fun t => -(σ * x t)) (fun t => -(σ * x' t)) T 0 (2 * k + ε / (2 * T)) hwc.neg
      (fun t ht => (hwd t ht).neg) (by simpa using h0) (by
        intro t ht ht'
        obtain ⟨r, e, -, h3⟩ := hb t ht
        have hε' : 0 < ε / (2 * T) := by positivity
        have hx : σ * x t ≤ 0 := by
          have := mul_nonneg (a := 2 * k + ε / (2 * T)) (by positivity) ht.1
          linarith
        have := mul_nonneg_of_nonpos_of_nonpos ha hx
        show -(σ * x' t) < _
        rw [e]
        linarith) T hTm
    have e : ε / (2 * T) * T = ε / 2 := by field_simp
    have e2 : (2 * k + ε / (2 * T)) * T = 2 * k * T + ε / 2 := by rw [add_mul, e]
    rw [e2] at this
    linarith
  · refine le_of_forall_pos_lt_add fun ε hε => ?_
    have hTT : T⁻¹ * T = 1 := inv_mul_cancel₀ hT.ne'
    have := Bounded.barrier (fun t => σ * x t) (fun t => σ * x' t) T 1 (-(δ * T⁻¹) + ε / (2 * T)) hwc hwd h1 (by
        intro t ht ht'
        obtain ⟨r, e, h2, -⟩ := hb t ht
        have hε' : 0 < ε / (2 * T) := by positivity
        have hi : 0 < T⁻¹ := inv_pos.2 hT
        have hx : 0 ≤ σ * x t := by
          rw [ht']
          have h5 : δ * T⁻¹ * t ≤ 1 := by
            calc δ * T⁻¹ * t ≤ δ * T⁻¹ * T := mul_le_mul_of_nonneg_left ht.2.le (by positivity)
              _ = δ := by rw [mul_assoc, hTT, mul_one]
              _ ≤ 1 := hδ1
          have := mul_nonneg hε'.le ht.1
          nlinarith
        have := mul_nonpos_of_nonpos_of_nonneg ha hx
        have hr : r ≤ -(δ * T⁻¹) := by
          have := mul_le_mul_of_nonneg_right h2 hi.le
          rw [mul_assoc, mul_comm T, hTT, mul_one] at this
          linarith
        show σ * x' t < _
        rw [e]
        linarith) T hTm
    have e : ε / (2 * T) * T = ε / 2 := by field_simp
    have e2 : (-(δ * T⁻¹) + ε / (2 * T)) * T = -δ + ε / 2 := by rw [add_mul, e, neg_mul, mul_assoc, hTT, mul_one]
    rw [e2] at this
    linarith

end Cbadc.Simulate
