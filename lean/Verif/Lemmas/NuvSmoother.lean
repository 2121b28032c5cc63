import Verif.Lemmas.NuvBatch
import Mathlib.Analysis.Matrix.PosDef
import Mathlib.Algebra.Order.Star.Real
import Mathlib.Tactic.Abel
import Mathlib.Tactic.Module
import Mathlib.Tactic.LinearCombination

/-! Helper lemmas for the NUV estimator: the algebra of a forward-backward pass. -/

namespace Cbadc.Nuv

open Matrix

variable {N P M L : ℕ} {C : Matrix (Fin P) (Fin N) ℝ} {V : Matrix (Fin N) (Fin N) ℝ} {Y : Matrix (Fin P) (Fin P) ℝ}

theorem sandwich_psd {n m : ℕ} {A : Matrix (Fin n) (Fin n) ℝ} (h : A.PosSemidef) (B : Matrix (Fin m) (Fin n) ℝ) :
    (B * A * Bᵀ).PosSemidef := by
  have := h.mul_mul_conjTranspose_same B
  rwa [conjTranspose_eq_transpose_of_trivial] at this

theorem transpose_of_psd {n : ℕ} {A : Matrix (Fin n) (Fin n) ℝ} (h : A.PosSemidef) : Aᵀ = A := by
  have := h.isHermitian
  rwa [IsHermitian, conjTranspose_eq_transpose_of_trivial] at this

theorem innovation_posDef (hY : Y.PosDef) (hV : V.PosSemidef) : (Y + C * (V * Cᵀ)).PosDef := by
  rw [← Matrix.mul_assoc]
  exact hY.add_posSemidef (sandwich_psd hV C)

theorem gain_mul (hY : Y.PosDef) (hV : V.PosSemidef) : gain C V Y * (Y + C * (V * Cᵀ)) = 1 :=
  nonsing_inv_mul _ ((isUnit_iff_isUnit_det _).1 (innovation_posDef hY hV).isUnit)

theorem mul_gain (hY : Y.PosDef) (hV : V.PosSemidef) : (Y + C * (V * Cᵀ)) * gain C V Y = 1 :=
  mul_nonsing_inv _ ((isUnit_iff_isUnit_det _).1 (innovation_posDef hY hV).isUnit)

theorem gain_transpose (hY : Y.PosDef) (hV : V.PosSemidef) : (gain C V Y)ᵀ = gain C V Y := by
  rw [gain, transpose_nonsing_inv, transpose_of_psd (innovation_posDef hY hV).posSemidef]

theorem factor_transpose (hY : Y.PosDef) (hV : V.PosSemidef) :
    (factor C V Y)ᵀ = 1 - Cᵀ * (gain C V Y * (C * V)) := by
  rw [factor, transpose_sub, transpose_one, transpose_mul, transpose_mul, transpose_mul, transpose_transpose,
    gain_transpose hY hV, transpose_of_psd hV]
  simp only [Matrix.mul_assoc]

/-- The residual of the smoothed output. -/
theorem residual (hY : Y.PosDef) (hV : V.PosSemidef) (m z : Fin N → ℝ) (ym : Fin P → ℝ) (ξ : Fin N → ℝ)
    (hξ : ξ = (factor C V Y)ᵀ *ᵥ z + Cᵀ *ᵥ (gain C V Y *ᵥ (C *ᵥ m - ym))) :
    C *ᵥ (m - V *ᵥ ξ) - ym = Y *ᵥ (gain C V Y *ᵥ (C *ᵥ m - ym - C *ᵥ (V *ᵥ z))) ∧
      ξ - z = Cᵀ *ᵥ (gain C V Y *ᵥ (C *ᵥ m - ym - C *ᵥ (V *ᵥ z))) := by
  have h2 : ξ - z = Cᵀ *ᵥ (gain C V Y *ᵥ (C *ᵥ m - ym - C *ᵥ (V *ᵥ z))) := by
    rw [hξ, factor_transpose hY hV]
    simp only [sub_mulVec, one_mulVec, mulVec_sub, ← mulVec_mulVec]
    abel
  refine ⟨?_, h2⟩
  obtain ⟨r, hr⟩ : ∃ r, r = C *ᵥ m - ym - C *ᵥ (V *ᵥ z) := ⟨_, rfl⟩
  rw [← hr] at h2 ⊢
  have h3 : ξ = z + Cᵀ *ᵥ (gain C V Y *ᵥ r) := by rw [← h2]; abel
  have h4 := congrArg (fun X => X *ᵥ r) (mul_gain (C := C) hY hV)
  simp only [add_mulVec, one_mulVec, ← mulVec_mulVec] at h4
  rw [h3]
  simp only [mulVec_add, mulVec_sub]
  have hr' : C *ᵥ m = r + ym + C *ᵥ (V *ᵥ z) := by rw [hr]; abel
  rw [hr']
  linear_combination (exp := 1) -h4

/-- The smoothed state after the observation, in terms of the filtered one. -/
theorem filtered (hY : Y.PosDef) (hV : V.PosSemidef) (m z : Fin N → ℝ) (ym : Fin P → ℝ) (ξ : Fin N → ℝ)
    (hξ : ξ = (factor C V Y)ᵀ *ᵥ z + Cᵀ *ᵥ (gain C V Y *ᵥ (C *ᵥ m - ym))) :
    factor C V Y *ᵥ m + V *ᵥ (Cᵀ *ᵥ (gain C V Y *ᵥ ym)) - (factor C V Y * V) *ᵥ z = m - V *ᵥ ξ := by
  have h := (residual hY hV m z ym ξ hξ).2
  have h3 : ξ = z + Cᵀ *ᵥ (gain C V Y *ᵥ (C *ᵥ m - ym - C *ᵥ (V *ᵥ z))) := by rw [← h]; abel
  rw [h3, factor]
  simp only [sub_mulVec, one_mulVec, mulVec_add, mulVec_sub, ← mulVec_mulVec]
  abel

/-- The covariance after an observation. -/
theorem factor_mul_posDef (hY : Y.PosDef) (hV : V.PosDef) : (factor C V Y * V).PosDef := by
  have hYu : IsUnit Y.det := (isUnit_iff_isUnit_det _).1 hY.isUnit
  have hVu : IsUnit V.det := (isUnit_iff_isUnit_det _).1 hV.isUnit
  have hS := mul_gain (C := C) hY hV.posSemidef
  obtain ⟨G, hG⟩ : ∃ G, G = gain C V Y := ⟨_, rfl⟩
  rw [← hG] at hS
  have hpd : (V⁻¹ + Cᵀ * Y⁻¹ * C).PosDef := by
    have := sandwich_psd hY.inv.posSemidef Cᵀ
    rw [transpose_transpose] at this
    exact hV.inv.add_posSemidef this
  have h1 : (V⁻¹ + Cᵀ * Y⁻¹ * C) * (factor C V Y * V) = 1 := by
    have h2 : Y⁻¹ * (C * (V * (Cᵀ * G))) = Y⁻¹ - G := by
      have := congrArg (fun X => Y⁻¹ * X) hS
      simp only [Matrix.add_mul, Matrix.mul_add, Matrix.mul_one, Matrix.mul_assoc] at this
      rw [← Matrix.mul_assoc Y⁻¹ Y G, nonsing_inv_mul _ hYu, Matrix.one_mul] at this
      exact eq_sub_of_add_eq' this
    rw [factor, ← hG]
    simp only [Matrix.add_mul, Matrix.mul_sub, Matrix.sub_mul, Matrix.one_mul, Matrix.mul_assoc]
    rw [← Matrix.mul_assoc V⁻¹ V, nonsing_inv_mul _ hVu, Matrix.one_mul]
    have h3 : Cᵀ * (Y⁻¹ * (C * (V * (Cᵀ * (G * (C * V)))))) = Cᵀ * (Y⁻¹ * (C * V)) - Cᵀ * (G * (C * V)) := by
      have := congrArg (fun X => Cᵀ * (X * (C * V))) h2
      simp only [Matrix.mul_assoc, Matrix.sub_mul, Matrix.mul_sub] at this
      exact this
    rw [h3]
    abel
  have h2 : factor C V Y * V = (V⁻¹ + Cᵀ * Y⁻¹ * C)⁻¹ := (inv_eq_right_inv h1).symm
  rw [h2]
  exact hpd.inv

theorem predict_posDef {A Vu : Matrix (Fin N) (Fin N) ℝ} (hY : Y.PosDef) (hV : V.PosDef) (hA : IsUnit A)
    (hu : Vu.PosSemidef) : (A * (factor C V Y * V * Aᵀ) + Vu).PosDef := by
  rw [← Matrix.mul_assoc]
  refine PosDef.add_posSemidef ?_ hu
  have := (factor_mul_posDef (C := C) hY hV).mul_mul_conjTranspose_same (B := A) (vecMul_injective_of_isUnit hA)
  rwa [conjTranspose_eq_transpose_of_trivial] at this

/-! ### The weights -/

theorem wBack_eq (a b : Fin P → ℝ) : wBack a b = diagonal fun i => 1 / a i + 1 / b i := by
  rw [wBack, diagonal_add]

theorem wBack_posDef {a b : Fin P → ℝ} (ha : ∀ i, 0 < a i) (hb : ∀ i, 0 < b i) : (wBack a b).PosDef := by
  rw [wBack_eq, posDef_diagonal_iff]
  intro i
  have := ha i
  have := hb i
  positivity

theorem wmBack_eq (bound : ℝ) (a b : Fin P → ℝ) :
    wmBack bound a b = fun i => bound * (1 / a i) - bound * (1 / b i) := by
  funext i
  simp [wmBack, diagonal_apply]

/-- The weighted distance of the output from the observation that the code computes. -/
theorem weight_residual {a b : Fin P → ℝ} (ha : ∀ i, 0 < a i) (hb : ∀ i, 0 < b i) (bound : ℝ) (y : Fin P → ℝ) :
    wBack a b *ᵥ (y - (wBack a b)⁻¹ *ᵥ wmBack bound a b) = fun i => (y i - bound) / a i + (y i + bound) / b i := by
  rw [mulVec_sub, mulVec_mulVec, mul_nonsing_inv _ ((isUnit_iff_isUnit_det _).1 (wBack_posDef ha hb).isUnit), one_mulVec,
    wmBack_eq, wBack_eq]
  funext i
  simp only [Pi.sub_apply, mulVec_diagonal]
  ring

theorem mulT_eq (C : Matrix (Fin N) (Fin N) ℝ) (hC : Cᵀ = C) (m : Fin N → ℝ) : mulT rfl C m = C *ᵥ m := by
  conv_rhs => rw [← hC]
  rfl

/-! ### The pass -/

/-- What a pass needs. -/
structure Ready (f : Est N N M L) (st : State N N M L) : Prop where
  CT : f.CTᵀ = f.CT
  Af : IsUnit f.pre.Af
  Vu : f.pre.Vu.PosSemidef
  K3 : 0 < f.K3
  cov : (st.cov 0).PosDef
  s1 : ∀ k l, 0 < st.s1 k l
  s2 : ∀ k l, 0 < st.s2 k l

theorem Ready.weight {f : Est N N M L} {st : State N N M L} (h : Ready f st) (k : ℕ) :
    ((f.stats st).yV k).PosDef := (wBack_posDef (h.s1 k) (h.s2 k)).inv

theorem Ready.forward {f : Est N N M L} {st : State N N M L} (h : Ready f st) :
    ∀ k, (f.forward (f.stats st) k).2.PosDef := by
  intro k
  induction k with
  | zero => exact h.cov
  | succ k ih => exact predict_posDef (h.weight k) ih h.Af h.Vu

/-- The equations that the results of a pass satisfy. -/
structure Pass (f : Est N N M L) (st r : State N N M L) : Prop where
  mean : r.mean 0 = st.mean 0
  cov : r.cov 0 = st.cov 0
  cs : r.cs = st.cs
  s1 : r.s1 = st.s1
  s2 : r.s2 = st.s2
  posDef : ∀ k, (r.cov k).PosDef
  last : ∀ k, k + 1 = f.K3 → f.CTᵀ *ᵥ (fun i => ((f.CT *ᵥ (r.mean k - r.cov k *ᵥ r.xi k)) i - f.bound) / st.s1 k i +
    ((f.CT *ᵥ (r.mean k - r.cov k *ᵥ r.xi k)) i + f.bound) / st.s2 k i) = r.xi k
  grad : ∀ k, k + 1 < f.K3 → f.CTᵀ *ᵥ (fun i => ((f.CT *ᵥ (r.mean k - r.cov k *ᵥ r.xi k)) i - f.bound) / st.s1 k i +
    ((f.CT *ᵥ (r.mean k - r.cov k *ᵥ r.xi k)) i + f.bound) / st.s2 k i) = r.xi k - f.pre.Afᵀ *ᵥ r.xi (k + 1)
  step : ∀ k, k + 1 < f.K3 → r.mean (k + 1) - r.cov (k + 1) *ᵥ r.xi (k + 1) =
    f.pre.Af *ᵥ (r.mean k - r.cov k *ᵥ r.xi k) + f.pre.Bf *ᵥ st.cs k - f.pre.Vu *ᵥ r.xi (k + 1)

theorem pass (f : Est N N M L) (st : State N N M L) (h : Ready f st) :
    ∃ r, f.mbf (f.stats st) = .ok r ∧ Pass f st r := by
  unfold Est.mbf
  rw [dif_pos rfl]
  refine ⟨_, rfl, ?_⟩
  -- gradient of the observations, for any message from the future
  have hgrad : ∀ k (z ξ : Fin N → ℝ),
      ξ = (factor f.CT (f.forward (f.stats st) k).2 ((f.stats st).yV k))ᵀ *ᵥ z +
        f.CTᵀ *ᵥ (gain f.CT (f.forward (f.stats st) k).2 ((f.stats st).yV k) *ᵥ
          (mulT rfl f.CT (f.forward (f.stats st) k).1 - (f.stats st).ym k)) →
      f.CTᵀ *ᵥ (fun i => ((f.CT *ᵥ ((f.forward (f.stats st) k).1 - (f.forward (f.stats st) k).2 *ᵥ ξ)) i - f.bound)
        / st.s1 k i + ((f.CT *ᵥ ((f.forward (f.stats st) k).1 - (f.forward (f.stats st) k).2 *ᵥ ξ)) i + f.bound)
        / st.s2 k i) = ξ - z := by
    intro k z ξ hξ
    rw [mulT_eq _ h.CT] at hξ
    obtain ⟨h1, h2⟩ := residual (h.weight k) (h.forward k).posSemidef _ z _ ξ hξ
    rw [h2, ← weight_residual (h.s1 k) (h.s2 k)]
    show f.CTᵀ *ᵥ (wBack (st.s1 k) (st.s2 k) *ᵥ (f.CT *ᵥ _ - (f.stats st).ym k)) = _
    rw [h1]
    show f.CTᵀ *ᵥ (wBack (st.s1 k) (st.s2 k) *ᵥ ((wBack (st.s1 k) (st.s2 k))⁻¹ *ᵥ _)) = _
    rw [mulVec_mulVec _ _ (wBack (st.s1 k) (st.s2 k))⁻¹, mul_nonsing_inv _ ((isUnit_iff_isUnit_det _).1
      (wBack_posDef (h.s1 k) (h.s2 k)).isUnit), one_mulVec]
  have hback : ∀ k, k + 1 < f.K3 → f.backward rfl (f.stats st) (f.K3 - 1 - k) =
      (factor f.CT (f.forward (f.stats st) k).2 ((f.stats st).yV k))ᵀ *ᵥ
        (f.pre.Afᵀ *ᵥ f.backward rfl (f.stats st) (f.K3 - 1 - (k + 1))) +
        f.CTᵀ *ᵥ (gain f.CT (f.forward (f.stats st) k).2 ((f.stats st).yV k) *ᵥ
          (mulT rfl f.CT (f.forward (f.stats st) k).1 - (f.stats st).ym k)) := by
    intro k hk
    obtain ⟨j, hj⟩ : ∃ j, f.K3 - 1 - k = j + 1 := ⟨f.K3 - 1 - k - 1, by omega⟩
    have hj' : f.K3 - 1 - (k + 1) = j := by omega
    have hk' : f.K3 - 1 - (j + 1) = k := by omega
    rw [hj, hj', Est.backward, hk']
  refine ⟨rfl, rfl, rfl, rfl, rfl, h.forward, ?_, ?_, ?_⟩
  · intro k hk
    have hk' : f.K3 - 1 = k := by omega
    have := hgrad k 0 (f.backward rfl (f.stats st) (f.K3 - 1 - k)) (by
      rw [show f.K3 - 1 - k = 0 by omega, Est.backward, hk'])
    rw [sub_zero] at this
    exact this
  · intro k hk
    exact hgrad k _ _ (hback k hk)
  · intro k hk
    have hξ := hback k hk
    rw [mulT_eq _ h.CT] at hξ
    have := filtered (h.weight k) (h.forward k).posSemidef _ _ _ _ hξ
    dsimp only
    rw [← this, Est.forward]
    dsimp only
    show _ + f.pre.Bf *ᵥ st.cs k - _ = _
    simp only [mulVec_add, mulVec_sub, add_mulVec, ← mulVec_mulVec]
    abel

end Cbadc.Nuv
