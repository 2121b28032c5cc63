import Mathlib.Analysis.Calculus.Deriv.MeanValue
import Mathlib.MeasureTheory.Integral.IntervalIntegral.FundThmCalculus
import Mathlib.Tactic.LinearCombination
import Mathlib.Tactic.Module
import Mathlib.Tactic.Ring
import Mathlib.Tactic.Abel
import Verif.Lemmas.Flow

/-! # Riccati equations and least squares -/

namespace Cbadc.Filter

open Matrix Set Spec

section algebra
variable {R : Type*} [CommRing R] {N : ℕ} {A S Q Vf Vb : Matrix (Fin N) (Fin N) R} {f b l : Fin N → R}

theorem riccati_costate (hf : A * Vf + Vf * Aᵀ - Vf * S * Vf + Q = 0) (hb : -A * Vb - Vb * Aᵀ - Vb * S * Vb + Q = 0)
    (hl : (Vf + Vb) *ᵥ l = b - f) :
    (A + Vb * S) *ᵥ b - (A - Vf * S) *ᵥ f = (Vf + Vb) *ᵥ (S *ᵥ (f + Vf *ᵥ l) - Aᵀ *ᵥ l) := by
  have h1 := congrArg (fun X => X *ᵥ l) hf
  have h2 := congrArg (fun X => X *ᵥ l) hb
  have hb' : b = f + Vf *ᵥ l + Vb *ᵥ l := by
    rw [add_mulVec] at hl
    rw [add_assoc, hl]; abel
  simp only [add_mulVec, sub_mulVec, neg_mul, neg_mulVec, zero_mulVec, ← mulVec_mulVec] at h1 h2
  rw [hb']
  simp only [add_mulVec, sub_mulVec, mulVec_add, mulVec_sub, ← mulVec_mulVec]
  linear_combination (exp := 1) h1 - h2

theorem riccati_state (hf : A * Vf + Vf * Aᵀ - Vf * S * Vf + Q = 0) :
    (A - Vf * S) *ᵥ f + Vf *ᵥ (S *ᵥ (f + Vf *ᵥ l) - Aᵀ *ᵥ l) = A *ᵥ (f + Vf *ᵥ l) + Q *ᵥ l := by
  have h1 := congrArg (fun X => X *ᵥ l) hf
  simp only [add_mulVec, sub_mulVec, zero_mulVec, ← mulVec_mulVec] at h1
  simp only [sub_mulVec, mulVec_add, mulVec_sub, ← mulVec_mulVec]
  linear_combination (exp := 1) -h1

end algebra

section period
variable {N L P : ℕ} {A Vf Vb S : Matrix (Fin N) (Fin N) ℝ} {B : Matrix (Fin N) (Fin L) ℝ} {C : Matrix (Fin P) (Fin N) ℝ}
  {eta2 T : ℝ} {q f b : ℝ → Fin N → ℝ}

theorem hasDerivWithinAt_dot {n : ℕ} {x y : ℝ → Fin n → ℝ} {x' y' : Fin n → ℝ} {s : Set ℝ} {t : ℝ}
    (hx : HasDerivWithinAt x x' s t) (hy : HasDerivWithinAt y y' s t) :
    HasDerivWithinAt (fun t => x t ⬝ᵥ y t) (x' ⬝ᵥ y t + x t ⬝ᵥ y') s t := by
  rw [hasDerivWithinAt_pi] at hx hy
  have h := HasDerivWithinAt.fun_sum (u := Finset.univ) (A := fun i t => x t i * y t i)
    (A' := fun i => x' i * y t i + x t i * y' i) (x := t) (s := s) fun i _ => (hx i).mul (hy i)
  refine h.congr_deriv ?_
  rw [Finset.sum_add_distrib]
  rfl

theorem continuousOn_dot {n : ℕ} {x y : ℝ → Fin n → ℝ} {s : Set ℝ} (hx : ContinuousOn x s) (hy : ContinuousOn y s) :
    ContinuousOn (fun t => x t ⬝ᵥ y t) s := by
  rw [continuousOn_pi] at hx hy
  exact continuousOn_finsetSum _ fun i _ => (hx i).mul (hy i)

theorem continuousOn_mulVec {n m : ℕ} (X : Matrix (Fin n) (Fin m) ℝ) {x : ℝ → Fin m → ℝ} {s : Set ℝ} (hx : ContinuousOn x s) :
    ContinuousOn (fun t => X *ᵥ x t) s := (lin X).continuous.comp_continuousOn hx

theorem hasDerivWithinAt_mulVec {n m : ℕ} (X : Matrix (Fin n) (Fin m) ℝ) {x : ℝ → Fin m → ℝ} {x' : Fin m → ℝ} {s : Set ℝ} {t : ℝ}
    (hx : HasDerivWithinAt x x' s t) : HasDerivWithinAt (fun t => X *ᵥ x t) (X *ᵥ x') s t :=
  (lin X).hasFDerivAt.comp_hasDerivWithinAt t hx

/-- the costate -/
noncomputable def costate (Vf Vb : Matrix (Fin N) (Fin N) ℝ) (f b : Fin N → ℝ) : Fin N → ℝ := (Vf + Vb)⁻¹ *ᵥ (b - f)

/-- the smoothed state -/
noncomputable def smooth (Vf Vb : Matrix (Fin N) (Fin N) ℝ) (f b : Fin N → ℝ) : Fin N → ℝ := f + Vf *ᵥ costate Vf Vb f b

theorem costate_spec (hV : IsUnit (Vf + Vb).det) (f b : Fin N → ℝ) : (Vf + Vb) *ᵥ costate Vf Vb f b = b - f := by
  rw [costate, mulVec_mulVec, mul_nonsing_inv _ hV, one_mulVec]

theorem flow_costate (hV : IsUnit (Vf + Vb).det) (hf : A * Vf + Vf * Aᵀ - Vf * S * Vf + B * Bᵀ = 0)
    (hb : -A * Vb - Vb * Aᵀ - Vb * S * Vb + B * Bᵀ = 0)
    (Ff : Flow (A - Vf * S) q 0 T f) (Fb : Flow (A + Vb * S) q 0 T b) :
    Flow (-Aᵀ) (fun t => S *ᵥ smooth Vf Vb (f t) (b t)) 0 T (fun t => costate Vf Vb (f t) (b t)) := by
  refine ⟨continuousOn_mulVec _ (Fb.cont.sub Ff.cont), fun t ht => ?_⟩
  refine (hasDerivWithinAt_mulVec (Vf + Vb)⁻¹ ((Fb.ode t ht).sub (Ff.ode t ht))).congr_deriv ?_
  have h := riccati_costate hf hb (costate_spec hV (f t) (b t))
  have e : (A + Vb * S) *ᵥ b t + q t - ((A - Vf * S) *ᵥ f t + q t) = (A + Vb * S) *ᵥ b t - (A - Vf * S) *ᵥ f t := by abel
  rw [e, h, mulVec_mulVec, nonsing_inv_mul _ hV, one_mulVec, neg_mulVec, smooth]
  abel

theorem flow_smooth (hV : IsUnit (Vf + Vb).det) (hf : A * Vf + Vf * Aᵀ - Vf * S * Vf + B * Bᵀ = 0)
    (hb : -A * Vb - Vb * Aᵀ - Vb * S * Vb + B * Bᵀ = 0)
    (Ff : Flow (A - Vf * S) q 0 T f) (Fb : Flow (A + Vb * S) q 0 T b) :
    Flow A (fun t => B *ᵥ (Bᵀ *ᵥ costate Vf Vb (f t) (b t)) + q t) 0 T (fun t => smooth Vf Vb (f t) (b t)) := by
  have hl := flow_costate hV hf hb Ff Fb
  refine ⟨Ff.cont.add (continuousOn_mulVec _ hl.cont), fun t ht => ?_⟩
  refine ((Ff.ode t ht).add (hasDerivWithinAt_mulVec Vf (hl.ode t ht))).congr_deriv ?_
  have h := riccati_state (f := f t) (l := costate Vf Vb (f t) (b t)) hf
  rw [← mulVec_mulVec] at h
  have e : -Aᵀ *ᵥ costate Vf Vb (f t) (b t) + S *ᵥ smooth Vf Vb (f t) (b t) =
    S *ᵥ (f t + Vf *ᵥ costate Vf Vb (f t) (b t)) - Aᵀ *ᵥ costate Vf Vb (f t) (b t) := by
    rw [neg_mulVec, smooth]; abel
  rw [e]
  simp only [smooth]
  linear_combination (exp := 1) h

theorem dot_square (X : Matrix (Fin P) (Fin N) ℝ) (x y : Fin N → ℝ) : (X *ᵥ x) ⬝ᵥ (X *ᵥ y) = x ⬝ᵥ ((Xᵀ * X) *ᵥ y) := by
  rw [← mulVec_mulVec, dotProduct_mulVec, dotProduct_mulVec, vecMul_transpose, dotProduct_mulVec]

theorem power_eq (hS : S = (1 / eta2) • (Cᵀ * C)) (u : Fin L → ℝ) (x : Fin N → ℝ) :
    power C eta2 u x = u ⬝ᵥ u + x ⬝ᵥ (S *ᵥ x) := by
  rw [power, dot_square, hS, smul_mulVec, dotProduct_smul, smul_eq_mul]

theorem power_nonneg (he : 0 < eta2) (u : Fin L → ℝ) (x : Fin N → ℝ) : 0 ≤ power C eta2 u x := by
  have h : ∀ {n : ℕ} (z : Fin n → ℝ), 0 ≤ z ⬝ᵥ z := fun z => Finset.sum_nonneg fun i _ => mul_self_nonneg _
  exact add_nonneg (h u) (mul_nonneg (by positivity) (h _))

/-- Pythagoras over one period -/
theorem pythagoras_period (hS : S = (1 / eta2) • (Cᵀ * C)) {u uh : ℝ → Fin L → ℝ} {x xh l : ℝ → Fin N → ℝ} {J Jh : ℝ → ℝ}
    (hu : ∀ t, uh t = Bᵀ *ᵥ l t)
    (Fl : Flow (-Aᵀ) (fun t => S *ᵥ xh t) 0 T l) (Fxh : Flow A (fun t => B *ᵥ uh t + q t) 0 T xh)
    (Fx : Flow A (fun t => B *ᵥ u t + q t) 0 T x)
    (hJ : ∀ t ∈ Ico 0 T, HasDerivWithinAt J (power C eta2 (u t) (x t)) (Ici t) t)
    (hJh : ∀ t ∈ Ico 0 T, HasDerivWithinAt Jh (power C eta2 (uh t) (xh t)) (Ici t) t) :
    ∀ t ∈ Ico 0 T, HasDerivWithinAt (fun t => J t - Jh t - 2 * (l t ⬝ᵥ (x t - xh t) - l 0 ⬝ᵥ (x 0 - xh 0)))
      (power C eta2 (u t - uh t) (x t - xh t)) (Ici t) t := by
  intro t ht
  have h1 := hasDerivWithinAt_dot (Fl.ode t ht) ((Fx.ode t ht).sub (Fxh.ode t ht))
  refine (((hJ t ht).sub (hJh t ht)).sub ((h1.sub_const (l 0 ⬝ᵥ (x 0 - xh 0))).const_mul 2)).congr_deriv ?_
  have hSt : Sᵀ = S := by rw [hS, transpose_smul, transpose_mul, transpose_transpose]
  have s1 : (S *ᵥ xh t) ⬝ᵥ x t = x t ⬝ᵥ (S *ᵥ xh t) := dotProduct_comm _ _
  have s2 : xh t ⬝ᵥ (S *ᵥ x t) = x t ⬝ᵥ (S *ᵥ xh t) := by
    rw [dotProduct_mulVec, ← mulVec_transpose, hSt, s1]
  have s3 : (S *ᵥ xh t) ⬝ᵥ xh t = xh t ⬝ᵥ (S *ᵥ xh t) := dotProduct_comm _ _
  have a1 : ∀ y, (Aᵀ *ᵥ l t) ⬝ᵥ y = l t ⬝ᵥ (A *ᵥ y) := fun y => by rw [dotProduct_mulVec, mulVec_transpose]
  have b1 : ∀ y, l t ⬝ᵥ (B *ᵥ y) = uh t ⬝ᵥ y := fun y => by rw [hu, dotProduct_mulVec, mulVec_transpose]
  have c1 : u t ⬝ᵥ uh t = uh t ⬝ᵥ u t := dotProduct_comm _ _
  simp only [Pi.sub_apply, power_eq hS, neg_mulVec, mulVec_sub, add_dotProduct, sub_dotProduct, dotProduct_add, dotProduct_sub,
    neg_dotProduct, s1, s2, s3, a1, b1, c1]
  ring

theorem exists_integral (hT : 0 ≤ T) {w : ℝ → ℝ} (hw : ContinuousOn w (Icc 0 T)) :
    ∃ J : ℝ → ℝ, J 0 = 0 ∧ ContinuousOn J (Icc 0 T) ∧ ∀ t ∈ Ico 0 T, HasDerivWithinAt J (w t) (Ici t) t := by
  have hc : Continuous (IccExtend hT (domRestrict (Icc 0 T) w)) := (continuousOn_iff_continuous_domRestrict.1 hw).Icc_extend'
  have hd : ∀ t, HasDerivAt (fun t => ∫ x in (0 : ℝ)..t, IccExtend hT (domRestrict (Icc 0 T) w) x)
      (IccExtend hT (domRestrict (Icc 0 T) w) t) t := fun t => (hc.integral_hasStrictDerivAt 0 t).hasDerivAt
  refine ⟨_, intervalIntegral.integral_same, fun t _ => (hd t).continuousAt.continuousWithinAt, fun t ht => ?_⟩
  have e : IccExtend hT (domRestrict (Icc 0 T) w) t = w t := by
    rw [IccExtend_of_mem hT _ (Ico_subset_Icc_self ht)]; rfl
  rw [← e]
  exact (hd t).hasDerivWithinAt

theorem nonneg_of_deriv (hT : 0 ≤ T) {J w : ℝ → ℝ} (h0 : J 0 = 0) (hc : ContinuousOn J (Icc 0 T))
    (hd : ∀ t ∈ Ico 0 T, HasDerivWithinAt J (w t) (Ici t) t) (hw : ∀ t ∈ Ico 0 T, 0 ≤ w t) : 0 ≤ J T := by
  have h := image_le_of_deriv_right_le_deriv_boundary (f := fun t => -J t) (f' := fun t => -w t) (a := 0) (b := T)
    (B := fun _ => 0) (B' := fun _ => 0) hc.neg (fun t ht => (hd t ht).neg) (by simp [h0]) continuousOn_const (fun t _ => (hasDerivWithinAt_const t _ 0))
    (fun t ht => by have := hw t ht; linarith) (x := T) ⟨hT, le_refl _⟩
  simpa using h

theorem quad_diff {V : Matrix (Fin N) (Fin N) ℝ} (hV : IsUnit V.det) (hs : Vᵀ = V) (l y : Fin N → ℝ) (σ : ℝ) (x : Fin N → ℝ)
    (hx : x = σ • V *ᵥ l) :
    y ⬝ᵥ V⁻¹ *ᵥ y = x ⬝ᵥ V⁻¹ *ᵥ x + (y - x) ⬝ᵥ V⁻¹ *ᵥ (y - x) + 2 * σ * (l ⬝ᵥ (y - x)) := by
  have h1 : V⁻¹ *ᵥ x = σ • l := by
    rw [hx, mulVec_smul, mulVec_mulVec, nonsing_inv_mul _ hV, one_mulVec]
  have h2 : x ⬝ᵥ V⁻¹ *ᵥ y = σ * (l ⬝ᵥ y) := by
    rw [dotProduct_mulVec, ← mulVec_transpose, transpose_nonsing_inv, hs, h1, smul_dotProduct, smul_eq_mul]
  have h3 : y ⬝ᵥ l = l ⬝ᵥ y := dotProduct_comm _ _
  have h4 : x ⬝ᵥ l = l ⬝ᵥ x := dotProduct_comm _ _
  simp only [mulVec_sub, sub_dotProduct, dotProduct_sub, h1, h2, dotProduct_smul, smul_eq_mul, h3, h4]
  ring

theorem smooth_end (hV : IsUnit (Vf + Vb).det) (f : Fin N → ℝ) : smooth Vf Vb f 0 = (-1 : ℝ) • Vb *ᵥ costate Vf Vb f 0 := by
  have h := costate_spec hV f 0
  rw [add_mulVec] at h
  rw [smooth, neg_one_smul]
  linear_combination (exp := 1) h

/-- The least squares property over several periods. -/
theorem least_squares (he : S = (1 / eta2) • (Cᵀ * C)) (hV : IsUnit (Vf + Vb).det) (hVf : IsUnit Vf.det) (hVb : IsUnit Vb.det)
    (sf : Vfᵀ = Vf) (sb : Vbᵀ = Vb)
    (hf : A * Vf + Vf * Aᵀ - Vf * S * Vf + B * Bᵀ = 0) (hb : -A * Vb - Vb * Aᵀ - Vb * S * Vb + B * Bᵀ = 0)
    (hT : 0 ≤ T) (K : ℕ) {q f b : ℕ → ℝ → Fin N → ℝ}
    (Ff : ∀ k < K, Flow (A - Vf * S) (q k) 0 T (f k)) (Fb : ∀ k < K, Flow (A + Vb * S) (q k) 0 T (b k))
    (jf : ∀ k < K, f k T = f (k + 1) 0) (jb : ∀ k < K, b k T = b (k + 1) 0) (f0 : f 0 0 = 0) (bK : b K 0 = 0)
    (uh : ℕ → ℝ → Fin L → ℝ) (xh : ℕ → ℝ → Fin N → ℝ) (hu : ∀ k t, uh k t = Bᵀ *ᵥ costate Vf Vb (f k t) (b k t))
    (hx : ∀ k t, xh k t = smooth Vf Vb (f k t) (b k t)) :
    Explains A B q T K uh xh ∧ ∃ Jh, Integrates T K (fun k t => power C eta2 (uh k t) (xh k t)) Jh ∧
      ∀ u x J, Explains A B q T K u x → Integrates T K (fun k t => power C eta2 (u k t) (x k t)) J →
        ∃ E, Integrates T K (fun k t => power C eta2 (u k t - uh k t) (x k t - xh k t)) E ∧
          total Vf Vb T K x J = total Vf Vb T K xh Jh + total Vf Vb T K (fun k t => x k t - xh k t) E := by
  have hl := fun k hk => flow_costate hV hf hb (Ff k hk) (Fb k hk)
  have hxf : ∀ k < K, Flow A (fun t => B *ᵥ uh k t + q k t) 0 T (xh k) := by
    intro k hk
    have h := flow_smooth hV hf hb (Ff k hk) (Fb k hk)
    simp only [hu]
    rw [show xh k = fun t => smooth Vf Vb (f k t) (b k t) from funext (hx k)]
    exact h
  have hjoin : ∀ k < K, xh k T = xh (k + 1) 0 := fun k hk => by rw [hx, hx, jf k hk, jb k hk]
  refine ⟨⟨hxf, hjoin⟩, ?_⟩
  have hcont : ∀ k < K, ContinuousOn (fun t => power C eta2 (uh k t) (xh k t)) (Icc 0 T) := by
    intro k hk
    have hxc := (hxf k hk).cont
    have huc : ContinuousOn (uh k) (Icc 0 T) := by
      rw [show uh k = fun t => Bᵀ *ᵥ costate Vf Vb (f k t) (b k t) from funext (hu k)]
      exact continuousOn_mulVec _ (hl k hk).cont
    exact (continuousOn_dot huc huc).add
      (continuousOn_const.mul (continuousOn_dot (continuousOn_mulVec C hxc) (continuousOn_mulVec C hxc)))
  have hJ : ∀ k, ∃ J : ℝ → ℝ, k < K → J 0 = 0 ∧ ContinuousOn J (Icc 0 T) ∧
      ∀ t ∈ Ico 0 T, HasDerivWithinAt J (power C eta2 (uh k t) (xh k t)) (Ici t) t := by
    intro k
    by_cases hk : k < K
    · obtain ⟨J, hJ⟩ := exists_integral hT (hcont k hk)
      exact ⟨J, fun _ => hJ⟩
    · exact ⟨0, fun h => absurd h hk⟩
  choose Jh hJh using hJ
  refine ⟨Jh, ⟨fun k hk => (hJh k hk).1, fun k hk => (hJh k hk).2.1, fun k hk => (hJh k hk).2.2⟩, fun u x J hE hI => ?_⟩
  obtain ⟨l, hldef⟩ : ∃ l : ℕ → ℝ → Fin N → ℝ, l = fun k t => costate Vf Vb (f k t) (b k t) := ⟨_, rfl⟩
  have hlk : ∀ k < K, Flow (-Aᵀ) (fun t => S *ᵥ xh k t) 0 T (l k) := by
    intro k hk
    have := hl k hk
    simp only [hldef, hx]
    exact this
  have huk : ∀ k t, uh k t = Bᵀ *ᵥ l k t := by intro k t; rw [hldef]; exact hu k t
  have hlj : ∀ k < K, l k T = l (k + 1) 0 := fun k hk => by
    rw [hldef]; dsimp only; rw [jf k hk, jb k hk]
  refine ⟨fun k t => J k t - Jh k t - 2 * (l k t ⬝ᵥ (x k t - xh k t) - l k 0 ⬝ᵥ (x k 0 - xh k 0)), ⟨?_, ?_, ?_⟩, ?_⟩
  · intro k hk
    rw [hI.start k hk, (hJh k hk).1]; ring
  · intro k hk
    exact ((hI.cont k hk).sub (hJh k hk).2.1).sub (continuousOn_const.mul
      ((continuousOn_dot (hlk k hk).cont ((hE.flow k hk).cont.sub (hxf k hk).cont)).sub continuousOn_const))
  · intro k hk
    exact pythagoras_period he (huk k) (hlk k hk) (hxf k hk) (hE.flow k hk) (hI.deriv k hk) (hJh k hk).2.2
  · have h0 := quad_diff hVf sf (l 0 0) (x 0 0) 1 (xh 0 0) (by
      rw [hx, smooth, f0, zero_add, one_smul, hldef]; dsimp only; rw [f0])
    have hK := quad_diff hVb sb (l K 0) (x K 0) (-1) (xh K 0) (by
      rw [hx, bK, smooth_end hV, hldef]; dsimp only; rw [bK])
    have htel : ∑ k ∈ Finset.range K, (l k T ⬝ᵥ (x k T - xh k T) - l k 0 ⬝ᵥ (x k 0 - xh k 0)) =
        l K 0 ⬝ᵥ (x K 0 - xh K 0) - l 0 0 ⬝ᵥ (x 0 0 - xh 0 0) := by
      rw [← Finset.sum_range_sub fun k => l k 0 ⬝ᵥ (x k 0 - xh k 0)]
      refine Finset.sum_congr rfl fun k hk => ?_
      have hk := Finset.mem_range.1 hk
      rw [hlj k hk, hE.join k hk, hjoin k hk]
    unfold total
    rw [h0, hK, Finset.sum_sub_distrib, Finset.sum_sub_distrib, ← Finset.mul_sum, htel]
    ring

end period

end Cbadc.Filter
