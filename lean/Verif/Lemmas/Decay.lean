import Mathlib.Analysis.SpecialFunctions.Pow.Asymptotics
import Mathlib.LinearAlgebra.Eigenspace.Triangularizable
import Mathlib.Analysis.Complex.Polynomial.Basic
import Verif.Lemmas.Riccati

/-! # Lemmas: stable matrices decay, also those without a basis of eigenvectors -/

namespace Cbadc.Filter

open Matrix Set Filter.Spec

variable {N P : ℕ}

section
variable {Z X : Matrix (Fin N) (Fin N) ℂ} {x : Fin N → ℂ} {k : ℕ} {μ : ℂ}

theorem pow_mulVec_zero (h : Z ^ k *ᵥ x = 0) {n : ℕ} (hn : k ≤ n) : Z ^ n *ᵥ x = 0 := by
  rw [show n = n - k + k by omega, pow_add, ← mulVec_mulVec, h, mulVec_zero]

theorem exp_mulVec_nilpotent (h : Z ^ k *ᵥ x = 0) (t : ℂ) :
    NormedSpace.exp (t • Z) *ᵥ x = ∑ n ∈ Finset.range k, ((n.factorial : ℂ)⁻¹ * t ^ n) • (Z ^ n *ᵥ x) := by
  let _ : NormedRing (Matrix (Fin N) (Fin N) ℂ) := Matrix.linftyOpNormedRing
  let _ : NormedAlgebra ℂ (Matrix (Fin N) (Fin N) ℂ) := Matrix.linftyOpNormedAlgebra
  have h1 : HasSum (fun n : ℕ => ((n.factorial : ℂ)⁻¹) • (t • Z) ^ n) (NormedSpace.exp (t • Z)) := NormedSpace.exp_series_hasSum_exp' _
  have h2 : HasSum (fun n : ℕ => (((n.factorial : ℂ)⁻¹) • (t • Z) ^ n) *ᵥ x) (NormedSpace.exp (t • Z) *ᵥ x) := by
    refine h1.map (⟨⟨fun M => M *ᵥ x, zero_mulVec x⟩, fun A B => add_mulVec A B x⟩ : Matrix (Fin N) (Fin N) ℂ →+ (Fin N → ℂ)) ?_
    exact continuous_id.matrix_mulVec continuous_const
  refine h2.unique ?_
  have h3 : ∀ n, (((n.factorial : ℂ)⁻¹) • (t • Z) ^ n) *ᵥ x = ((n.factorial : ℂ)⁻¹ * t ^ n) • (Z ^ n *ᵥ x) := by
    intro n
    rw [smul_pow, smul_smul, smul_mulVec]
  simp only [h3]
  exact hasSum_sum_of_ne_finset_zero fun n hn => by rw [pow_mulVec_zero h (by simpa using hn), smul_zero]

theorem tendsto_pow_exp (hμ : μ.re < 0) (n : ℕ) : Filter.Tendsto (fun t : ℝ => Complex.exp (t * μ) * (t : ℂ) ^ n) Filter.atTop (nhds 0) := by
  rw [tendsto_zero_iff_norm_tendsto_zero]
  refine (tendsto_rpow_mul_exp_neg_mul_atTop_nhds_zero n (-μ.re) (by linarith)).congr' ?_
  filter_upwards [Filter.eventually_ge_atTop 0] with t ht
  rw [norm_mul, Complex.norm_exp, norm_pow, Complex.norm_real, Real.norm_of_nonneg ht, Real.rpow_natCast, mul_comm]
  simp [mul_comm]

theorem exp_decay_gen (h : (X - μ • 1) ^ k *ᵥ x = 0) (hμ : μ.re < 0) :
    Filter.Tendsto (fun t : ℝ => NormedSpace.exp ((t : ℂ) • X) *ᵥ x) Filter.atTop (nhds 0) := by
  have e : ∀ t : ℝ, NormedSpace.exp ((t : ℂ) • X) *ᵥ x =
      ∑ n ∈ Finset.range k, (Complex.exp (t * μ) * (t : ℂ) ^ n) • ((n.factorial : ℂ)⁻¹ • ((X - μ • 1) ^ n *ᵥ x)) := by
    intro t
    have e1 : (t : ℂ) • X = (t : ℂ) • (X - μ • 1) + ((t : ℂ) * μ) • (1 : Matrix (Fin N) (Fin N) ℂ) := by
      rw [smul_sub, smul_smul, sub_add_cancel]
    have e2 : NormedSpace.exp (((t : ℂ) * μ) • (1 : Matrix (Fin N) (Fin N) ℂ)) = Complex.exp (t * μ) • (1 : Matrix (Fin N) (Fin N) ℂ) := by
      rw [smul_one_eq_diagonal, Matrix.exp_diagonal, smul_one_eq_diagonal, Pi.exp_def]
      congr 1
      funext i
      rw [Complex.exp_eq_exp_ℂ]
    rw [e1, Matrix.exp_add_of_commute _ _ ((Commute.one_right _).smul_right _), e2, Matrix.mul_smul, Matrix.mul_one, smul_mulVec,
      exp_mulVec_nilpotent h, Finset.smul_sum]
    refine Finset.sum_congr rfl fun n _ => ?_
    rw [smul_smul, smul_smul]
    congr 1
    ring
  rw [show (fun t : ℝ => NormedSpace.exp ((t : ℂ) • X) *ᵥ x) = _ from funext e,
    show (0 : Fin N → ℂ) = ∑ n ∈ Finset.range k, (0 : ℂ) • ((n.factorial : ℂ)⁻¹ • ((X - μ • 1) ^ n *ᵥ x)) by simp]
  exact tendsto_finsetSum _ fun n _ => (tendsto_pow_exp hμ n).smul_const _

end

/-- exponentials of stable matrices decay -/
theorem hurwitz_decay {X : Matrix (Fin N) (Fin N) ℝ} (hX : Hurwitz X) :
    Filter.Tendsto (fun t : ℝ => NormedSpace.exp (t • X)) Filter.atTop (nhds 0) := by
  have key : ∀ x : Fin N → ℂ, Filter.Tendsto (fun t : ℝ => NormedSpace.exp ((t : ℂ) • cc X) *ᵥ x) Filter.atTop (nhds 0) := by
    intro x
    have hx : x ∈ ⨆ μ : ℂ, Module.End.maxGenEigenspace (mulVecLin (cc X)) μ := by
      rw [Module.End.iSup_maxGenEigenspace_eq_top]
      exact Submodule.mem_top
    refine Submodule.iSup_induction (fun μ : ℂ => Module.End.maxGenEigenspace (mulVecLin (cc X)) μ)
      (motive := fun x => Filter.Tendsto (fun t : ℝ => NormedSpace.exp ((t : ℂ) • cc X) *ᵥ x) Filter.atTop (nhds 0)) hx ?_ ?_ ?_
    · intro μ y hy
      by_cases hy0 : y = 0
      · simp only [hy0, mulVec_zero]
        exact tendsto_const_nhds
      have hne : Module.End.maxGenEigenspace (mulVecLin (cc X)) μ ≠ ⊥ := fun h => hy0 (by
        rw [h] at hy
        exact (Submodule.mem_bot ℂ).1 hy)
      have hev : Module.End.HasEigenvalue (mulVecLin (cc X)) μ := Module.End.HasUnifEigenvalue.lt (k := ⊤) zero_lt_one hne
      obtain ⟨v, hv⟩ := hev.exists_hasEigenvector
      have hμ := hX μ v hv.2 hv.apply_eq_smul
      obtain ⟨k, hk⟩ := (Module.End.mem_maxGenEigenspace _ _ _).1 hy
      refine exp_decay_gen (k := k) ?_ hμ
      have e : ∀ k : ℕ, ∀ z, (cc X - μ • 1) ^ k *ᵥ z = (((mulVecLin (cc X)) - μ • (1 : Module.End ℂ (Fin N → ℂ))) ^ k) z := by
        intro k
        induction k with
        | zero => intro z; simp
        | succ k ih =>
          intro z
          rw [pow_succ, pow_succ, ← mulVec_mulVec, ih, Module.End.mul_apply]
          congr 1
          rw [sub_mulVec, smul_mulVec, one_mulVec]
          rfl
      rw [e k y, hk]
    · simp only [mulVec_zero]
      exact tendsto_const_nhds
    · intro y z hy hz
      have := hy.add hz
      rw [add_zero] at this
      exact this.congr fun t => by rw [mulVec_add]
  refine tendsto_pi_nhds.2 fun i => tendsto_pi_nhds.2 fun j => ?_
  have h1 := tendsto_pi_nhds.1 (key (Pi.single j 1)) i
  have h2 := (Complex.continuous_re.tendsto 0).comp h1
  refine h2.congr fun t => ?_
  have h3 : NormedSpace.exp ((t : ℂ) • cc X) = cc (NormedSpace.exp (t • X)) := by rw [cc_exp, cc_smul]
  show ((NormedSpace.exp ((t : ℂ) • cc X) *ᵥ Pi.single j 1) i).re = _
  rw [h3, mulVec_single_one]
  rfl

end Cbadc.Filter
