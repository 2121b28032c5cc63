import Mathlib.Analysis.SpecialFunctions.Pow.Real
import Mathlib.Analysis.Matrix.Normed
import Mathlib.Algebra.Order.Field.GeomSum
import Verif.Lemmas.Estimator

/-! # Lemmas: finite filters (C145) -/

namespace Cbadc.Truncation

open Matrix Cbadc.Spec

variable {N M L : ℕ}

/-- powers that vanish vanish geometrically -/
theorem geometric {X : Matrix (Fin N) (Fin N) ℝ} (h : Filter.Tendsto (fun k : ℕ => X ^ k) Filter.atTop (nhds 0)) :
    ∃ C r : ℝ, 0 ≤ C ∧ 0 ≤ r ∧ r < 1 ∧ ∀ k i j, |(X ^ k) i j| ≤ C * r ^ k := by
  let _ : NormedRing (Matrix (Fin N) (Fin N) ℝ) := Matrix.linftyOpNormedRing
  have hn : Filter.Tendsto (fun k : ℕ => ‖X ^ k‖) Filter.atTop (nhds 0) := by
    have := (continuous_norm (E := Matrix (Fin N) (Fin N) ℝ)).tendsto 0 |>.comp h
    rwa [norm_zero] at this
  obtain ⟨m, hm, hm1⟩ : ∃ m : ℕ, ‖X ^ m‖ ≤ 1 / 2 ∧ 1 ≤ m := by
    have h1 := (hn.eventually (ge_mem_nhds (show (0 : ℝ) < 1 / 2 by norm_num))).and (Filter.eventually_ge_atTop 1)
    exact h1.exists
  have hm0 : (m : ℝ) ≠ 0 := by positivity
  obtain ⟨r, hr⟩ : ∃ r : ℝ, r = (1 / 2 : ℝ) ^ ((m : ℝ)⁻¹) := ⟨_, rfl⟩
  have hr0 : 0 < r := hr ▸ Real.rpow_pos_of_pos (by norm_num) _
  have hr1 : r < 1 := hr ▸ Real.rpow_lt_one (by norm_num) (by norm_num) (by positivity)
  have hrm : r ^ m = 1 / 2 := by rw [hr, Real.rpow_inv_natCast_pow (by norm_num) (by omega)]
  obtain ⟨D, hD⟩ : ∃ D : ℝ, D = ∑ s ∈ Finset.range m, ‖X ^ s‖ := ⟨_, rfl⟩
  have hD0 : 0 ≤ D := hD ▸ Finset.sum_nonneg fun _ _ => norm_nonneg _
  have hent : ∀ (Y : Matrix (Fin N) (Fin N) ℝ) i j, |Y i j| ≤ ‖Y‖ := by
    intro Y i j
    rw [Matrix.linfty_opNorm_def]
    have h1 : ‖Y i j‖₊ ≤ ∑ j, ‖Y i j‖₊ := Finset.single_le_sum (f := fun j => ‖Y i j‖₊) (fun _ _ => zero_le) (Finset.mem_univ j)
    have h2 : ∑ j, ‖Y i j‖₊ ≤ Finset.univ.sup fun i => ∑ j, ‖Y i j‖₊ := Finset.le_sup (f := fun i => ∑ j, ‖Y i j‖₊) (Finset.mem_univ i)
    exact NNReal.coe_le_coe.2 (h1.trans h2)
  refine ⟨D * 2, r, by positivity, hr0.le, hr1, fun k i j => (hent _ i j).trans ?_⟩
  have hk : k = m * (k / m) + k % m := (Nat.div_add_mod k m).symm
  have hs : k % m < m := Nat.mod_lt _ (by omega)
  have h1 : ‖X ^ (k % m)‖ ≤ D := hD ▸ Finset.single_le_sum (f := fun s => ‖X ^ s‖) (fun _ _ => norm_nonneg _) (Finset.mem_range.2 hs)
  have h2 : ∀ q : ℕ, ‖X ^ (m * q) * X ^ (k % m)‖ ≤ (1 / 2) ^ q * ‖X ^ (k % m)‖ := by
    intro q
    induction q with
    | zero => simp
    | succ q ih =>
      rw [Nat.mul_succ, add_comm, pow_add, Matrix.mul_assoc]
      refine (norm_mul_le _ _).trans ?_
      calc ‖X ^ m‖ * ‖X ^ (m * q) * X ^ (k % m)‖ ≤ 1 / 2 * ((1 / 2) ^ q * ‖X ^ (k % m)‖) :=
            mul_le_mul hm ih (norm_nonneg _) (by norm_num)
        _ = _ := by rw [pow_succ]; ring
  have h3 : (1 / 2 : ℝ) ^ (k / m) ≤ 2 * r ^ k := by
    have h4 : r ^ k = (1 / 2) ^ (k / m) * r ^ (k % m) := by
      conv_lhs => rw [hk]
      rw [pow_add, pow_mul, hrm]
    have h5 : (1 / 2 : ℝ) ≤ r ^ (k % m) := by
      rw [← hrm]
      exact pow_le_pow_of_le_one hr0.le hr1.le hs.le
    rw [h4]
    have h6 : (0 : ℝ) ≤ (1 / 2) ^ (k / m) := by positivity
    nlinarith
  have h7 : X ^ k = X ^ (m * (k / m)) * X ^ (k % m) := by rw [← pow_add, ← hk]
  rw [h7]
  refine (h2 _).trans ?_
  calc (1 / 2 : ℝ) ^ (k / m) * ‖X ^ (k % m)‖ ≤ (2 * r ^ k) * D := mul_le_mul h3 h1 (norm_nonneg _) (by positivity)
    _ = _ := by ring

/-- the contribution of bounded control vectors beyond a distance -/
theorem tail_le (W : Matrix (Fin L) (Fin N) ℝ) {X : Matrix (Fin N) (Fin N) ℝ} (B : Matrix (Fin N) (Fin M) ℝ)
    (h : Filter.Tendsto (fun k : ℕ => X ^ k) Filter.atTop (nhds 0)) :
    ∃ C r : ℝ, 0 ≤ C ∧ 0 ≤ r ∧ r < 1 ∧ ∀ (x : ℕ → Fin M → ℝ), (∀ i m, |x i m| ≤ 1) → ∀ a b, a ≤ b → ∀ l,
      |(∑ i ∈ Finset.Ico a b, (W * (X ^ i * B)) *ᵥ x i) l| ≤ C * r ^ a := by
  obtain ⟨C, r, hC, hr0, hr1, hX⟩ := geometric h
  obtain ⟨D, hD⟩ : ∃ D : ℝ, D = ∑ l, ∑ m, ∑ i, ∑ j, |W l i| * |B j m| := ⟨_, rfl⟩
  have hD0 : 0 ≤ D := hD ▸ Finset.sum_nonneg fun _ _ => Finset.sum_nonneg fun _ _ => Finset.sum_nonneg fun _ _ =>
    Finset.sum_nonneg fun _ _ => by positivity
  have h1 : 0 < 1 - r := by linarith
  have hterm : ∀ (v : Fin M → ℝ), (∀ m, |v m| ≤ 1) → ∀ i l, |((W * (X ^ i * B)) *ᵥ v) l| ≤ C * D * r ^ i := by
    intro v hv i l
    calc |((W * (X ^ i * B)) *ᵥ v) l| = |∑ m, (∑ p, W l p * ∑ q, (X ^ i) p q * B q m) * v m| := by
          simp only [mulVec, dotProduct, Matrix.mul_apply]
      _ ≤ ∑ m, ∑ p, ∑ q, |W l p| * |B q m| * (C * r ^ i) := by
          refine (Finset.abs_sum_le_sum_abs _ _).trans (Finset.sum_le_sum fun m _ => ?_)
          rw [abs_mul]
          refine (mul_le_of_le_one_right (abs_nonneg _) (hv m)).trans ?_
          refine (Finset.abs_sum_le_sum_abs _ _).trans (Finset.sum_le_sum fun p _ => ?_)
          rw [abs_mul]
          refine (mul_le_mul_of_nonneg_left (Finset.abs_sum_le_sum_abs _ _) (abs_nonneg _)).trans ?_
          rw [Finset.mul_sum]
          refine Finset.sum_le_sum fun q _ => ?_
          rw [abs_mul]
          calc |W l p| * (|(X ^ i) p q| * |B q m|) = |W l p| * |B q m| * |(X ^ i) p q| := by ring
            _ ≤ _ := mul_le_mul_of_nonneg_left (hX i p q) (by positivity)
      _ = (∑ m, ∑ p, ∑ q, |W l p| * |B q m|) * (C * r ^ i) := by
          simp only [Finset.sum_mul]
      _ ≤ D * (C * r ^ i) := by
          refine mul_le_mul_of_nonneg_right ?_ (by positivity)
          rw [hD]
          exact Finset.single_le_sum (f := fun l => ∑ m, ∑ p, ∑ q, |W l p| * |B q m|) (fun _ _ => Finset.sum_nonneg fun _ _ =>
            Finset.sum_nonneg fun _ _ => Finset.sum_nonneg fun _ _ => by positivity) (Finset.mem_univ l)
      _ = _ := by ring
  refine ⟨C * D / (1 - r), r, by positivity, hr0, hr1, fun x hx a b hab l => ?_⟩
  rw [Finset.sum_apply]
  refine (Finset.abs_sum_le_sum_abs _ _).trans ?_
  refine (Finset.sum_le_sum fun i _ => hterm (x i) (hx i) i l).trans ?_
  rw [← Finset.mul_sum, div_mul_eq_mul_div, mul_div_assoc]
  refine mul_le_mul_of_nonneg_left ?_ (by positivity)
  rw [Finset.sum_Ico_eq_sum_range, le_div_iff₀ h1]
  simp only [pow_add]
  rw [← Finset.mul_sum, mul_assoc]
  refine mul_le_of_le_one_right (by positivity) ?_
  rw [geom_sum_mul_neg]
  have : (0 : ℝ) ≤ r ^ (b - a) := by positivity
  linarith

theorem ext_le (s : ℕ → Fin M → ℝ) (hs : ∀ j m, 0 ≤ s j m ∧ s j m ≤ 1) (j : ℤ) (m : Fin M) : |Spec.ext s j m| ≤ 1 := by
  unfold Spec.ext
  split_ifs
  · have := hs j.toNat m
    rw [abs_le]
    constructor <;> linarith
  · simp

end Cbadc.Truncation
