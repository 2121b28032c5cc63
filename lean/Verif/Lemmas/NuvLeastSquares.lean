import Verif.Lemmas.LeastSquares
import Verif.Lemmas.FilterSampling
import Verif.Spec.Nuv
import Mathlib.MeasureTheory.Integral.IntervalIntegral.FundThmCalculus

/-! Helper lemmas for the NUV estimator: the smoothing problem in continuous time. -/

namespace Cbadc.Nuv

open Matrix Set Cbadc.Filter Cbadc.Filter.Spec Cbadc.Nuv.Spec

variable {N P L : ℕ}

/-! ### Variation of constants -/

theorem exp_add_smul (A : Matrix (Fin N) (Fin N) ℝ) (a b : ℝ) :
    NormedSpace.exp ((a + b) • A) = NormedSpace.exp (a • A) * NormedSpace.exp (b • A) := by
  rw [add_smul, Matrix.exp_add_of_commute _ _ ((Commute.refl A).smul_left a |>.smul_right b)]

theorem continuous_exp_mulVec (A : Matrix (Fin N) (Fin N) ℝ) (x : Fin N → ℝ) :
    Continuous fun t : ℝ => NormedSpace.exp (t • A) *ᵥ x :=
  continuous_iff_continuousAt.2 fun t => (hasDerivAt_exp_mulVec A x t).continuousAt

theorem continuous_exp_entry (A : Matrix (Fin N) (Fin N) ℝ) (i j : Fin N) :
    Continuous fun t : ℝ => NormedSpace.exp (t • A) i j := by
  have h := (continuous_pi_iff.1 (continuous_exp_mulVec A (Pi.single j 1))) i
  refine h.congr fun t => ?_
  rw [mulVec_single_one]
  rfl

theorem exp_mulVec_sum (X : Matrix (Fin N) (Fin N) ℝ) (c : Fin N → ℝ) :
    X *ᵥ c = ∑ j, c j • X *ᵥ Pi.single j 1 := by
  ext i
  simp only [Finset.sum_apply, Pi.smul_apply, mulVec_single_one, smul_eq_mul]
  show ∑ j, X i j * c j = ∑ j, c j * X i j
  exact Finset.sum_congr rfl fun j _ => mul_comm _ _

/-- The solution that starts at zero. -/
theorem duhamel (A : Matrix (Fin N) (Fin N) ℝ) (T : ℝ) (v : ℝ → Fin N → ℝ) (hv : Continuous v) :
    ∃ π, Flow A v 0 T π ∧ π 0 = 0 ∧ ∀ i, π T i = ∫ s in (0 : ℝ)..T, (NormedSpace.exp ((T - s) • A) *ᵥ v s) i := by
  have hg : ∀ j, Continuous fun s : ℝ => (NormedSpace.exp ((-s) • A) *ᵥ v s) j := by
    intro j
    show Continuous fun s : ℝ => ∑ i, NormedSpace.exp ((-s) • A) j i * v s i
    refine continuous_finsetSum _ fun i _ => ?_
    exact ((continuous_exp_entry A j i).comp continuous_neg).mul (continuous_pi_iff.1 hv i)
  obtain ⟨c, hc⟩ : ∃ c : ℝ → Fin N → ℝ, c = fun t j => ∫ s in (0 : ℝ)..t, (NormedSpace.exp ((-s) • A) *ᵥ v s) j := ⟨_, rfl⟩
  have hcd : ∀ t j, HasDerivAt (fun t => c t j) ((NormedSpace.exp ((-t) • A) *ᵥ v t) j) t := by
    intro t j
    rw [hc]
    exact ((hg j).integral_hasStrictDerivAt 0 t).hasDerivAt
  have hder : ∀ t, HasDerivAt (fun t => NormedSpace.exp (t • A) *ᵥ c t) (A *ᵥ (NormedSpace.exp (t • A) *ᵥ c t) + v t) t := by
    intro t
    have e : (fun t : ℝ => NormedSpace.exp (t • A) *ᵥ c t) =
        fun t : ℝ => ∑ j, c t j • NormedSpace.exp (t • A) *ᵥ Pi.single j 1 := by
      funext t; exact exp_mulVec_sum _ _
    rw [e]
    have h := HasDerivAt.fun_sum (u := Finset.univ) fun j (_ : j ∈ Finset.univ) =>
      (hcd t j).fun_smul (hasDerivAt_exp_mulVec A (Pi.single j 1) t)
    refine h.congr_deriv ?_
    rw [Finset.sum_add_distrib, ← exp_mulVec_sum, mulVec_mulVec, ← exp_add_smul, add_neg_cancel, zero_smul,
      NormedSpace.exp_zero, one_mulVec]
    congr 1
    rw [exp_mulVec_sum (NormedSpace.exp (t • A)) (c t), mulVec_sum]
    exact Finset.sum_congr rfl fun j _ => (mulVec_smul _ _ _).symm
  refine ⟨fun t => NormedSpace.exp (t • A) *ᵥ c t, ⟨fun t _ => (hder t).continuousAt.continuousWithinAt,
    fun t _ => (hder t).hasDerivWithinAt⟩, ?_, fun i => ?_⟩
  · have : c 0 = 0 := by
      rw [hc]; funext j; exact intervalIntegral.integral_same
    dsimp only
    rw [this, mulVec_zero]
  · show ∑ j, NormedSpace.exp (T • A) i j * c T j = _
    rw [hc]
    dsimp only
    simp only [← intervalIntegral.integral_const_mul]
    refine (intervalIntegral.integral_finsetSum (f := fun j s => NormedSpace.exp (T • A) i j *
      (NormedSpace.exp ((-s) • A) *ᵥ v s) j) fun j _ => ((continuous_const.mul (hg j)).intervalIntegrable _ _)).symm.trans ?_
    refine intervalIntegral.integral_congr fun s _ => ?_
    show (NormedSpace.exp (T • A) *ᵥ (NormedSpace.exp ((-s) • A) *ᵥ v s)) i = _
    rw [mulVec_mulVec, ← exp_add_smul, sub_eq_add_neg]

/-! ### The energy needed to steer the state -/

/-- The matrix `∫ e^{A (T - t)} B Bᵀ e^{Aᵀ (T - t)} dt`. -/
noncomputable def gram (A : Matrix (Fin N) (Fin N) ℝ) (B : Matrix (Fin N) (Fin L) ℝ) (T : ℝ) : Matrix (Fin N) (Fin N) ℝ :=
  Matrix.of fun i j => ∫ t in (0 : ℝ)..T,
    (NormedSpace.exp ((T - t) • A) * (B * Bᵀ) * (NormedSpace.exp ((T - t) • A))ᵀ) i j

theorem continuous_gram_entry (A : Matrix (Fin N) (Fin N) ℝ) (B : Matrix (Fin N) (Fin L) ℝ) (T : ℝ) (i j : Fin N) :
    Continuous fun t : ℝ => (NormedSpace.exp ((T - t) • A) * (B * Bᵀ) * (NormedSpace.exp ((T - t) • A))ᵀ) i j := by
  have hE : ∀ i j, Continuous fun t : ℝ => NormedSpace.exp ((T - t) • A) i j := fun i j =>
    (continuous_exp_entry A i j).comp (continuous_const.sub continuous_id)
  show Continuous fun t : ℝ => ∑ a, (∑ c, NormedSpace.exp ((T - t) • A) i c * (B * Bᵀ) c a) *
    NormedSpace.exp ((T - t) • A) j a
  exact continuous_finsetSum _ fun a _ => (continuous_finsetSum _ fun c _ => (hE i c).mul continuous_const).mul (hE j a)

theorem gram_mulVec (A : Matrix (Fin N) (Fin N) ℝ) (B : Matrix (Fin N) (Fin L) ℝ) (T : ℝ) (x : Fin N → ℝ) (i : Fin N) :
    (gram A B T *ᵥ x) i = ∫ t in (0 : ℝ)..T,
      (NormedSpace.exp ((T - t) • A) *ᵥ (B *ᵥ (Bᵀ *ᵥ ((NormedSpace.exp ((T - t) • A))ᵀ *ᵥ x)))) i := by
  show ∑ j, gram A B T i j * x j = _
  unfold gram
  simp only [of_apply, ← intervalIntegral.integral_mul_const]
  refine (intervalIntegral.integral_finsetSum (f := fun j t => (NormedSpace.exp ((T - t) • A) * (B * Bᵀ) *
    (NormedSpace.exp ((T - t) • A))ᵀ) i j * x j) fun j _ =>
      ((continuous_gram_entry A B T i j).mul continuous_const).intervalIntegrable _ _).symm.trans ?_
  refine intervalIntegral.integral_congr fun t _ => ?_
  show ((NormedSpace.exp ((T - t) • A) * (B * Bᵀ) * (NormedSpace.exp ((T - t) • A))ᵀ) *ᵥ x) i = _
  simp only [← mulVec_mulVec]

theorem gram_psd (A : Matrix (Fin N) (Fin N) ℝ) (B : Matrix (Fin N) (Fin L) ℝ) {T : ℝ} (hT : 0 ≤ T) :
    (gram A B T).PosSemidef := by
  refine PosSemidef.of_dotProduct_mulVec_nonneg ?_ fun x => ?_
  · rw [IsHermitian, conjTranspose_eq_transpose_of_trivial]
    ext i j
    show gram A B T j i = gram A B T i j
    unfold gram
    simp only [of_apply]
    refine intervalIntegral.integral_congr fun t _ => ?_
    show ((NormedSpace.exp ((T - t) • A) * (B * Bᵀ) * (NormedSpace.exp ((T - t) • A))ᵀ)ᵀ) i j = _
    rw [transpose_mul, transpose_mul, transpose_transpose, transpose_mul, transpose_transpose, ← Matrix.mul_assoc]
  · show 0 ≤ ∑ i, x i * (gram A B T *ᵥ x) i
    simp only [gram_mulVec, ← intervalIntegral.integral_const_mul]
    have hE : ∀ i j, Continuous fun t : ℝ => NormedSpace.exp ((T - t) • A) i j := fun i j =>
      (continuous_exp_entry A i j).comp (continuous_const.sub continuous_id)
    have hc : ∀ i, Continuous fun t : ℝ => (NormedSpace.exp ((T - t) • A) *ᵥ (B *ᵥ (Bᵀ *ᵥ
        ((NormedSpace.exp ((T - t) • A))ᵀ *ᵥ x)))) i := by
      intro i
      show Continuous fun t : ℝ => ∑ j, NormedSpace.exp ((T - t) • A) i j * ∑ l, B j l * ∑ k, B k l *
        ∑ a, NormedSpace.exp ((T - t) • A) a k * x a
      exact continuous_finsetSum _ fun j _ => (hE i j).mul (continuous_finsetSum _ fun l _ => continuous_const.mul
        (continuous_finsetSum _ fun k _ => continuous_const.mul (continuous_finsetSum _ fun a _ =>
          (hE a k).mul continuous_const)))
    rw [← intervalIntegral.integral_finsetSum (f := fun i t => x i * (NormedSpace.exp ((T - t) • A) *ᵥ (B *ᵥ (Bᵀ *ᵥ
        ((NormedSpace.exp ((T - t) • A))ᵀ *ᵥ x)))) i) fun i _ => (continuous_const.mul (hc i)).intervalIntegrable _ _]
    refine intervalIntegral.integral_nonneg hT fun t _ => ?_
    show 0 ≤ x ⬝ᵥ (NormedSpace.exp ((T - t) • A) *ᵥ (B *ᵥ (Bᵀ *ᵥ ((NormedSpace.exp ((T - t) • A))ᵀ *ᵥ x))))
    rw [dotProduct_mulVec, ← mulVec_transpose, dotProduct_mulVec, ← mulVec_transpose]
    exact Finset.sum_nonneg fun i _ => mul_self_nonneg _

/-! ### Least squares -/

/-- Pythagoras over one period, for the energy alone. -/
theorem energy_period {A : Matrix (Fin N) (Fin N) ℝ} {B : Matrix (Fin N) (Fin L) ℝ} {q : ℝ → Fin N → ℝ} {T : ℝ}
    {u uh : ℝ → Fin L → ℝ} {x xh l : ℝ → Fin N → ℝ} {J Jh : ℝ → ℝ} (hu : ∀ t, uh t = Bᵀ *ᵥ l t)
    (Fl : Flow (-Aᵀ) (fun _ => 0) 0 T l) (Fxh : Flow A (fun t => B *ᵥ uh t + q t) 0 T xh)
    (Fx : Flow A (fun t => B *ᵥ u t + q t) 0 T x)
    (hJ : ∀ t ∈ Ico 0 T, HasDerivWithinAt J (u t ⬝ᵥ u t) (Ici t) t)
    (hJh : ∀ t ∈ Ico 0 T, HasDerivWithinAt Jh (uh t ⬝ᵥ uh t) (Ici t) t) :
    ∀ t ∈ Ico 0 T, HasDerivWithinAt (fun t => J t - Jh t - 2 * (l t ⬝ᵥ (x t - xh t) - l 0 ⬝ᵥ (x 0 - xh 0)))
      ((u t - uh t) ⬝ᵥ (u t - uh t)) (Ici t) t := by
  have hp : ∀ (v : Fin L → ℝ) (z : Fin N → ℝ), power (0 : Matrix (Fin 1) (Fin N) ℝ) 1 v z = v ⬝ᵥ v := by
    intro v z
    simp [power]
  have h := pythagoras_period (C := (0 : Matrix (Fin 1) (Fin N) ℝ)) (eta2 := 1) (S := 0) (by simp) hu
    (Fl.congr fun t _ => by simp) Fxh Fx (fun t ht => by rw [hp]; exact hJ t ht) (fun t ht => by rw [hp]; exact hJh t ht)
  intro t ht
  have := h t ht
  rw [hp] at this
  exact this

theorem exp_transpose_flow (A : Matrix (Fin N) (Fin N) ℝ) (T : ℝ) (ξ : Fin N → ℝ) :
    Flow (-Aᵀ) (fun _ => 0) 0 T (fun t => (NormedSpace.exp ((T - t) • A))ᵀ *ᵥ ξ) := by
  have h := flow_exp (-Aᵀ) (NormedSpace.exp (T • Aᵀ) *ᵥ ξ) 0 T
  have e : (fun t : ℝ => NormedSpace.exp (t • -Aᵀ) *ᵥ (NormedSpace.exp (T • Aᵀ) *ᵥ ξ)) =
      fun t => (NormedSpace.exp ((T - t) • A))ᵀ *ᵥ ξ := by
    funext t
    rw [mulVec_mulVec, smul_neg, ← neg_smul, ← exp_add_smul, ← Matrix.exp_transpose, transpose_smul, neg_add_eq_sub]
  rwa [e] at h

/-- The cheapest way over one period to the state that is wanted at its end. -/
theorem steer {A : Matrix (Fin N) (Fin N) ℝ} (B : Matrix (Fin N) (Fin L) ℝ) {q ψ : ℝ → Fin N → ℝ} {T : ℝ} (w : ℝ) (hT : 0 ≤ T)
    (hψ : Flow A q 0 T ψ) (h0 : ψ 0 = 0) (x0 ξ : Fin N → ℝ) :
    ∃ (l x : ℝ → Fin N → ℝ) (J : ℝ → ℝ), Flow (-Aᵀ) (fun _ => 0) 0 T l ∧
      Flow A (fun t => B *ᵥ (Bᵀ *ᵥ l t) + q t) 0 T x ∧ x 0 = x0 ∧
      x T = NormedSpace.exp (T • A) *ᵥ x0 + ψ T - (w • gram A B T) *ᵥ ξ ∧
      l T = -(w • ξ) ∧ l 0 = -(w • (NormedSpace.exp (T • A))ᵀ *ᵥ ξ) ∧
      J 0 = 0 ∧ ContinuousOn J (Icc 0 T) ∧ ∀ t ∈ Ico 0 T, HasDerivWithinAt J ((Bᵀ *ᵥ l t) ⬝ᵥ (Bᵀ *ᵥ l t)) (Ici t) t := by
  obtain ⟨l, hl⟩ : ∃ l : ℝ → Fin N → ℝ, l = fun t => -(w • (NormedSpace.exp ((T - t) • A))ᵀ *ᵥ ξ) := ⟨_, rfl⟩
  have hE : ∀ i j, Continuous fun t : ℝ => NormedSpace.exp ((T - t) • A) i j := fun i j =>
    (continuous_exp_entry A i j).comp (continuous_const.sub continuous_id)
  have hlc : ∀ i, Continuous fun t => l t i := by
    intro i
    rw [hl]
    show Continuous fun t : ℝ => -(w * ∑ j, NormedSpace.exp ((T - t) • A) j i * ξ j)
    exact (continuous_const.mul (continuous_finsetSum _ fun j _ => (hE j i).mul continuous_const)).neg
  have huc : ∀ i, Continuous fun t => (Bᵀ *ᵥ l t) i := by
    intro i
    show Continuous fun t => ∑ j, B j i * l t j
    exact continuous_finsetSum _ fun j _ => continuous_const.mul (hlc j)
  have hvc : Continuous fun t => B *ᵥ (Bᵀ *ᵥ l t) := by
    refine continuous_pi fun i => ?_
    show Continuous fun t => ∑ j, B i j * (Bᵀ *ᵥ l t) j
    exact continuous_finsetSum _ fun j _ => continuous_const.mul (huc j)
  obtain ⟨π, hπ, hπ0, hπT⟩ := duhamel A T _ hvc
  have hpc : Continuous fun t => (Bᵀ *ᵥ l t) ⬝ᵥ (Bᵀ *ᵥ l t) := by
    show Continuous fun t => ∑ i, (Bᵀ *ᵥ l t) i * (Bᵀ *ᵥ l t) i
    exact continuous_finsetSum _ fun i _ => (huc i).mul (huc i)
  obtain ⟨J, hJ0, hJc, hJd⟩ := exists_integral hT (hpc.continuousOn (s := Icc 0 T))
  refine ⟨l, fun t => NormedSpace.exp (t • A) *ᵥ x0 + ψ t + π t, J, ?_, ?_, ?_, ?_, ?_, ?_, hJ0, hJc, hJd⟩
  · have := (exp_transpose_flow A T ξ).smul (-w)
    have e : l = fun t => -w • (NormedSpace.exp ((T - t) • A))ᵀ *ᵥ ξ := by
      rw [hl]
      exact funext fun t => (neg_smul _ _).symm
    rw [e]
    exact this.congr fun t _ => smul_zero _
  · refine (((flow_exp A x0 0 T).add hψ).add hπ).congr fun t _ => ?_
    abel
  · show NormedSpace.exp ((0 : ℝ) • A) *ᵥ x0 + ψ 0 + π 0 = x0
    rw [exp_zero_smul, one_mulVec, h0, hπ0, add_zero, add_zero]
  · show _ + _ + π T = _
    have : π T = -((w • gram A B T) *ᵥ ξ) := by
      ext i
      rw [hπT, Pi.neg_apply, smul_mulVec, Pi.smul_apply, gram_mulVec, smul_eq_mul, ← intervalIntegral.integral_const_mul,
        ← intervalIntegral.integral_neg]
      refine intervalIntegral.integral_congr fun t _ => ?_
      simp only [hl, mulVec_neg, mulVec_smul, Pi.neg_apply, Pi.smul_apply, smul_eq_mul]
    rw [this, sub_eq_add_neg]
  · simp only [hl]
    rw [sub_self, exp_zero_smul, transpose_one, one_mulVec]
  · simp only [hl]
    rw [sub_zero]

section
variable {p : Window N P L} {n : ℕ}

/-- The derivative of the weighted distances of the outputs from the bounds. -/
noncomputable def slope (p : Window N P L) (s1 s2 : ℕ → Fin P → ℝ) (k : ℕ) (x : Fin N → ℝ) : Fin P → ℝ :=
  fun i => ((p.C *ᵥ x) i - p.b) / s1 k i + ((p.C *ᵥ x) i + p.b) / s2 k i

theorem spread_step (p : Window N P L) (s1 s2 : ℕ → Fin P → ℝ) (k : ℕ) (y x : Fin N → ℝ) :
    ∑ l, (((p.C *ᵥ y) l - p.b) ^ 2 / s1 k l + ((p.C *ᵥ y) l + p.b) ^ 2 / s2 k l) =
      ∑ l, (((p.C *ᵥ x) l - p.b) ^ 2 / s1 k l + ((p.C *ᵥ x) l + p.b) ^ 2 / s2 k l) +
      ∑ l, ((p.C *ᵥ (y - x)) l ^ 2 / s1 k l + (p.C *ᵥ (y - x)) l ^ 2 / s2 k l) +
      2 * ((p.Cᵀ *ᵥ slope p s1 s2 k x) ⬝ᵥ (y - x)) := by
  have h : (p.Cᵀ *ᵥ slope p s1 s2 k x) ⬝ᵥ (y - x) = ∑ l, slope p s1 s2 k x l * (p.C *ᵥ (y - x)) l := by
    rw [mulVec_transpose, ← dotProduct_mulVec]
    rfl
  rw [h, Finset.mul_sum, ← Finset.sum_add_distrib, ← Finset.sum_add_distrib]
  refine Finset.sum_congr rfl fun l _ => ?_
  rw [mulVec_sub, Pi.sub_apply, slope]
  ring

/-- Solutions of the equations of a smoother are the explanation of least cost. -/
theorem smooth_optimal (hK : p.K = n + 1) (hw : 0 < p.w) (hT : 0 ≤ p.T) (hV : p.V0.PosDef) {s1 s2 : ℕ → Fin P → ℝ}
    (hs1 : ∀ k l, 0 < s1 k l) (hs2 : ∀ k l, 0 < s2 k l) (xs ξ : ℕ → Fin N → ℝ) (ψ : ℕ → ℝ → Fin N → ℝ)
    (hψ : ∀ k < n, Flow p.A (p.q k) 0 p.T (ψ k)) (hψ0 : ∀ k < n, ψ k 0 = 0) (h0 : xs 0 - p.m0 = -(p.V0 *ᵥ ξ 0))
    (hlast : p.Cᵀ *ᵥ slope p s1 s2 n (xs n) = ξ n)
    (hgrad : ∀ k < n, p.Cᵀ *ᵥ slope p s1 s2 k (xs k) = ξ k - (NormedSpace.exp (p.T • p.A))ᵀ *ᵥ ξ (k + 1))
    (hstep : ∀ k < n, xs (k + 1) = NormedSpace.exp (p.T • p.A) *ᵥ xs k + ψ k p.T - (p.w • gram p.A p.B p.T) *ᵥ ξ (k + 1)) :
    ∃ u x J, (p.Smoothed s1 s2 u x J ∧ (∀ u' x' J', p.Explained u' x' J' → p.quad x J + p.spread s1 s2 x +
      ∑ k ∈ Finset.range p.K, ∑ l, ((p.y x' k l - p.y x k l) ^ 2 / s1 k l + (p.y x' k l - p.y x k l) ^ 2 / s2 k l) ≤
        p.quad x' J' + p.spread s1 s2 x' ∧
      ∃ E, Integrates p.T (p.K - 1) (fun k t => (u' k t - u k t) ⬝ᵥ (u' k t - u k t)) E)) ∧ (∀ k < p.K, x k 0 = xs k) ∧ ∀ k < n, u k p.T = -(p.w • p.Bᵀ *ᵥ ξ (k + 1)) := by
  have hex : ∀ k, ∃ (l x : ℝ → Fin N → ℝ) (J : ℝ → ℝ), x 0 = xs k ∧ (k < n → Flow (-p.Aᵀ) (fun _ => 0) 0 p.T l ∧
      Flow p.A (fun t => p.B *ᵥ (p.Bᵀ *ᵥ l t) + p.q k t) 0 p.T x ∧
      x p.T = xs (k + 1) ∧ l p.T = -(p.w • ξ (k + 1)) ∧ l 0 = -(p.w • (NormedSpace.exp (p.T • p.A))ᵀ *ᵥ ξ (k + 1)) ∧
      J 0 = 0 ∧ ContinuousOn J (Icc 0 p.T) ∧
      ∀ t ∈ Ico 0 p.T, HasDerivWithinAt J ((p.Bᵀ *ᵥ l t) ⬝ᵥ (p.Bᵀ *ᵥ l t)) (Ici t) t) := by
    intro k
    by_cases hk : k < n
    · obtain ⟨l, x, J, h1, h2, h3, h4, h5⟩ := steer p.B p.w hT (hψ k hk) (hψ0 k hk) (xs k) (ξ (k + 1))
      exact ⟨l, x, J, h3, fun _ => ⟨h1, h2, h4.trans (hstep k hk).symm, h5⟩⟩
    · exact ⟨fun _ => 0, fun _ => xs k, fun _ => 0, rfl, fun h => absurd h hk⟩
  choose l x J hx h using hex
  have hK1 : p.K - 1 = n := by omega
  -- the cost of another explanation
  have key : ∀ u' x' J', p.Explained u' x' J' → ∃ E : ℕ → ℝ → ℝ,
      Integrates p.T n (fun k t => (u' k t - p.Bᵀ *ᵥ l k t) ⬝ᵥ (u' k t - p.Bᵀ *ᵥ l k t)) E ∧
      p.quad x' J' + p.spread s1 s2 x' = p.quad x J + p.spread s1 s2 x + (∑ k ∈ Finset.range n, E k p.T) / p.w +
        (x' 0 0 - xs 0) ⬝ᵥ p.V0⁻¹ *ᵥ (x' 0 0 - xs 0) +
        ∑ k ∈ Finset.range (n + 1), ∑ i, ((p.C *ᵥ (x' k 0 - xs k)) i ^ 2 / s1 k i +
          (p.C *ᵥ (x' k 0 - xs k)) i ^ 2 / s2 k i) := by
    intro u' x' J' h'
    have he := h'.explains
    have hg := h'.energy
    rw [hK1] at he hg
    refine ⟨fun k t => J' k t - J k t - 2 * (l k t ⬝ᵥ (x' k t - x k t) - l k 0 ⬝ᵥ (x' k 0 - x k 0)), ⟨?_, ?_, ?_⟩, ?_⟩
    · intro k hk
      simp only [hg.start k hk, (h k hk).2.2.2.2.2.1]
      ring
    · intro k hk
      exact ((hg.cont k hk).sub (h k hk).2.2.2.2.2.2.1).sub (continuousOn_const.mul
        ((continuousOn_dot (h k hk).1.cont ((he.flow k hk).cont.sub (h k hk).2.1.cont)).sub continuousOn_const))
    · intro k hk
      exact energy_period (fun _ => rfl) (h k hk).1 (h k hk).2.1 (he.flow k hk) (hg.deriv k hk) (h k hk).2.2.2.2.2.2.2
    · obtain ⟨α, hα⟩ : ∃ α : ℕ → ℝ, α = fun k => ξ k ⬝ᵥ (x' k 0 - xs k) := ⟨_, rfl⟩
      obtain ⟨β, hβ⟩ : ∃ β : ℕ → ℝ, β = fun k => ((NormedSpace.exp (p.T • p.A))ᵀ *ᵥ ξ (k + 1)) ⬝ᵥ (x' k 0 - xs k) := ⟨_, rfl⟩
      have hJ : (∑ k ∈ Finset.range n, J' k p.T) / p.w = (∑ k ∈ Finset.range n, J k p.T) / p.w +
          (∑ k ∈ Finset.range n, (J' k p.T - J k p.T - 2 * (l k p.T ⬝ᵥ (x' k p.T - x k p.T) -
            l k 0 ⬝ᵥ (x' k 0 - x k 0)))) / p.w + 2 * ∑ k ∈ Finset.range n, (β k - α (k + 1)) := by
        rw [Finset.mul_sum, Finset.sum_div, Finset.sum_div, Finset.sum_div, ← Finset.sum_add_distrib,
          ← Finset.sum_add_distrib]
        refine Finset.sum_congr rfl fun k hk => ?_
        have hk' := Finset.mem_range.1 hk
        rw [(h k hk').2.2.1, (h k hk').2.2.2.1, (h k hk').2.2.2.2.1, he.join k hk', hx k, hα, hβ]
        simp only [neg_dotProduct, smul_dotProduct, smul_eq_mul]
        field_simp
        ring
      have hs : p.spread s1 s2 x' = p.spread s1 s2 x + ∑ k ∈ Finset.range (n + 1), ∑ i,
          ((p.C *ᵥ (x' k 0 - xs k)) i ^ 2 / s1 k i + (p.C *ᵥ (x' k 0 - xs k)) i ^ 2 / s2 k i) +
          2 * (∑ k ∈ Finset.range n, (α k - β k) + α n) := by
        have e : ∀ k ∈ Finset.range (n + 1), ∑ l, ((p.y x' k l - p.b) ^ 2 / s1 k l + (p.y x' k l + p.b) ^ 2 / s2 k l) =
            ∑ l, ((p.y x k l - p.b) ^ 2 / s1 k l + (p.y x k l + p.b) ^ 2 / s2 k l) +
            ∑ i, ((p.C *ᵥ (x' k 0 - xs k)) i ^ 2 / s1 k i + (p.C *ᵥ (x' k 0 - xs k)) i ^ 2 / s2 k i) +
            2 * ((p.Cᵀ *ᵥ slope p s1 s2 k (xs k)) ⬝ᵥ (x' k 0 - xs k)) := by
          intro k _
          have := spread_step p s1 s2 k (x' k 0) (xs k)
          rw [← hx k] at this ⊢
          exact this
        rw [Window.spread, Window.spread, hK, Finset.sum_congr rfl e, Finset.sum_add_distrib, Finset.sum_add_distrib,
          ← Finset.mul_sum, Finset.sum_range_succ (fun k => (p.Cᵀ *ᵥ slope p s1 s2 k (xs k)) ⬝ᵥ (x' k 0 - xs k)), hlast]
        have e2 : ∑ k ∈ Finset.range n, (p.Cᵀ *ᵥ slope p s1 s2 k (xs k)) ⬝ᵥ (x' k 0 - xs k) =
            ∑ k ∈ Finset.range n, (α k - β k) := by
          refine Finset.sum_congr rfl fun k hk => ?_
          rw [hgrad k (Finset.mem_range.1 hk), sub_dotProduct, hα, hβ]
        rw [e2, hα]
      have hq := quad_diff ((isUnit_iff_isUnit_det _).1 hV.isUnit) (by
        have := hV.isHermitian
        rwa [IsHermitian, conjTranspose_eq_transpose_of_trivial] at this) (ξ 0) (x' 0 0 - p.m0) (-1) (xs 0 - p.m0) (by
          rw [h0, neg_one_smul])
      have ht := Finset.sum_range_sub α n
      have ht' : ∑ k ∈ Finset.range n, (β k - α (k + 1)) + ∑ k ∈ Finset.range n, (α k - β k) = -(α n - α 0) := by
        rw [← ht, ← Finset.sum_add_distrib, ← Finset.sum_neg_distrib]
        exact Finset.sum_congr rfl fun k _ => by ring
      have e3 : x' 0 0 - p.m0 - (xs 0 - p.m0) = x' 0 0 - xs 0 := by abel
      rw [e3] at hq
      have ha0 : ξ 0 ⬝ᵥ (x' 0 0 - xs 0) = α 0 := by rw [hα]
      rw [ha0] at hq
      rw [Window.quad, Window.quad, hK1, hJ, hs, hq, hx 0]
      linear_combination 2 * ht'
  have hexp : p.Explained (fun k t => p.Bᵀ *ᵥ l k t) x J := by
    refine ⟨?_, ?_⟩ <;> rw [hK1]
    · exact ⟨fun k hk => (h k hk).2.1, fun k hk => (h k hk).2.2.1.trans (hx (k + 1)).symm⟩
    · exact ⟨fun k hk => (h k hk).2.2.2.2.2.1, fun k hk => (h k hk).2.2.2.2.2.2.1, fun k hk => (h k hk).2.2.2.2.2.2.2⟩
  have hEn : ∀ (E : ℕ → ℝ → ℝ) (u' : ℕ → ℝ → Fin L → ℝ), Integrates p.T n (fun k t => (u' k t - p.Bᵀ *ᵥ l k t) ⬝ᵥ (u' k t - p.Bᵀ *ᵥ l k t)) E →
      ∀ k ∈ Finset.range n, 0 ≤ E k p.T := fun E u' hE k hk => integrates_nonneg hT hE (fun k _ t _ =>
        Finset.sum_nonneg fun i _ => mul_self_nonneg _) (Finset.mem_range.1 hk)
  have hDn : ∀ x' : ℕ → ℝ → Fin N → ℝ, 0 ≤ ∑ k ∈ Finset.range (n + 1), ∑ i, ((p.C *ᵥ (x' k 0 - xs k)) i ^ 2 / s1 k i +
          (p.C *ᵥ (x' k 0 - xs k)) i ^ 2 / s2 k i) := fun x' => Finset.sum_nonneg fun k _ => Finset.sum_nonneg fun i _ => by
    have := hs1 k i
    have := hs2 k i
    positivity
  refine ⟨fun k t => p.Bᵀ *ᵥ l k t, x, J, ⟨⟨hexp, ?_, ?_, ?_⟩, ?_⟩, fun k _ => hx k, ?_⟩
  · intro k hk
    exact continuousOn_mulVec _ (h k (by omega)).1.cont
  · intro u' x' J' h'
    obtain ⟨E, hE, e⟩ := key u' x' J' h'
    have h1 := div_nonneg (Finset.sum_nonneg (hEn E u' hE)) hw.le
    have h2 := quad_nonneg hV (x' 0 0 - xs 0)
    have h3 := hDn x'
    linarith
  · intro u' x' J' h' hle
    obtain ⟨E, hE, e⟩ := key u' x' J' h'
    have h1 := div_nonneg (Finset.sum_nonneg (hEn E u' hE)) hw.le
    have h2 := quad_nonneg hV (x' 0 0 - xs 0)
    have h3 := hDn x'
    have hE0 : (∑ k ∈ Finset.range n, E k p.T) / p.w = 0 := by linarith
    have hq0 : (x' 0 0 - xs 0) ⬝ᵥ p.V0⁻¹ *ᵥ (x' 0 0 - xs 0) = 0 := by linarith
    refine ⟨?_, ?_⟩
    · intro k hk t ht
      rw [hK1] at hk
      have hE1 : ∑ k ∈ Finset.range n, E k p.T = 0 := by
        rcases div_eq_zero_iff.1 hE0 with h | h
        · exact h
        · exact absurd h hw.ne'
      have hz := (Finset.sum_eq_zero_iff_of_nonneg (hEn E u' hE)).1 hE1 k (Finset.mem_range.2 hk)
      have := integrates_zero (hE.start k hk) (hE.cont k hk) (hE.deriv k hk) (fun t _ =>
        Finset.sum_nonneg fun i _ => mul_self_nonneg _) hz t ht
      exact sub_eq_zero.1 (dotProduct_self_eq_zero.1 this)
    · rw [hx 0]
      by_contra hne
      have := hV.inv.dotProduct_mulVec_pos (x := x' 0 0 - xs 0) (sub_ne_zero.2 hne)
      simp only [star_trivial] at this
      exact absurd hq0 this.ne'
  · intro u' x' J' h'
    obtain ⟨E, hE, e⟩ := key u' x' J' h'
    have h1 := div_nonneg (Finset.sum_nonneg (hEn E u' hE)) hw.le
    have h2 := quad_nonneg hV (x' 0 0 - xs 0)
    have e2 : ∑ k ∈ Finset.range p.K, ∑ l, ((p.y x' k l - p.y x k l) ^ 2 / s1 k l + (p.y x' k l - p.y x k l) ^ 2 / s2 k l) =
        ∑ k ∈ Finset.range (n + 1), ∑ i, ((p.C *ᵥ (x' k 0 - xs k)) i ^ 2 / s1 k i +
          (p.C *ᵥ (x' k 0 - xs k)) i ^ 2 / s2 k i) := by
      rw [hK]
      refine Finset.sum_congr rfl fun k _ => Finset.sum_congr rfl fun l _ => ?_
      rw [mulVec_sub, Pi.sub_apply, ← hx k]
      rfl
    rw [e2]
    exact ⟨by linarith, E, hK1.symm ▸ hE⟩
  · intro k hk
    show p.Bᵀ *ᵥ l k p.T = _
    rw [(h k hk).2.2.2.1, mulVec_neg, mulVec_smul]

/-- The values at the ends of the periods are determined. -/
theorem smoothed_value (hK : p.K = n + 1) (hw : 0 < p.w) (hT : 0 < p.T) (hV : p.V0.PosDef) {s1 s2 : ℕ → Fin P → ℝ}
    (hs1 : ∀ k l, 0 < s1 k l) (hs2 : ∀ k l, 0 < s2 k l) (xs ξ : ℕ → Fin N → ℝ) (ψ : ℕ → ℝ → Fin N → ℝ)
    (hψ : ∀ k < n, Flow p.A (p.q k) 0 p.T (ψ k)) (hψ0 : ∀ k < n, ψ k 0 = 0) (h0 : xs 0 - p.m0 = -(p.V0 *ᵥ ξ 0))
    (hlast : p.Cᵀ *ᵥ slope p s1 s2 n (xs n) = ξ n)
    (hgrad : ∀ k < n, p.Cᵀ *ᵥ slope p s1 s2 k (xs k) = ξ k - (NormedSpace.exp (p.T • p.A))ᵀ *ᵥ ξ (k + 1))
    (hstep : ∀ k < n, xs (k + 1) = NormedSpace.exp (p.T • p.A) *ᵥ xs k + ψ k p.T - (p.w • gram p.A p.B p.T) *ᵥ ξ (k + 1))
    {u : ℕ → ℝ → Fin L → ℝ} {x : ℕ → ℝ → Fin N → ℝ} {J : ℕ → ℝ → ℝ} (h : p.Smoothed s1 s2 u x J) :
    ∀ k < n, u k p.T = -(p.w • p.Bᵀ *ᵥ ξ (k + 1)) := by
  obtain ⟨u', x', J', ⟨h', -⟩, -, hu⟩ := smooth_optimal hK hw hT.le hV hs1 hs2 xs ξ ψ hψ hψ0 h0 hlast hgrad hstep
  obtain ⟨e, -⟩ := h'.unique _ _ _ h.explained (h.least _ _ _ h'.explained)
  intro k hk
  have hk' : k < p.K - 1 := by omega
  rw [← hu k hk]
  have hsub : EqOn (u k) (u' k) (Ico 0 p.T) := fun t ht => e k hk' t ht
  have hc := closure_Ico hT.ne (a := (0 : ℝ))
  exact hsub.of_subset_closure (h.continuous k hk') (h'.continuous k hk') Ico_subset_Icc_self (by rw [hc]) ⟨hT.le, le_rfl⟩

end

end Cbadc.Nuv
