import Mathlib.LinearAlgebra.Matrix.Notation
import Mathlib.Algebra.BigOperators.Field
import Mathlib.Algebra.Order.BigOperators.Ring.Finset
import Mathlib.Tactic.Positivity.Finset
import Mathlib.Tactic.FinCases
import Mathlib.Tactic.NormNum
import Verif.Lemmas.TransferFunction

/-! # Properties of the transfer functions of the estimators (C41, C75, C76) -/

namespace Cbadc.Analog

open Matrix Spec
open scoped ComplexOrder

variable {Nt L : ℕ}

/-! ### C41 -/

/-- **C41** For `eta2 > 0` there is exactly one matrix `F` satisfying the documented equation of the noise transfer
function; the reported noise transfer function is its magnitude, entry by entry, and the reported signal transfer function
of input `l` is the magnitude of the diagonal entry `l` of `F G`. -/
theorem C41_spec {eta2 : ℝ} (h : 0 < eta2) (G : Matrix (Fin Nt) (Fin L) ℂ)
    (pinv : Matrix (Fin Nt) (Fin Nt) ℂ → Matrix (Fin Nt) (Fin Nt) ℂ) (hp : IsPinv (gram eta2 G) (pinv (gram eta2 G))) :
    ∃ F, IsNTF eta2 G F ∧ (∀ F', IsNTF eta2 G F' → F' = F) ∧ (∀ l n, ntf pinv eta2 G l n = ‖F l n‖) ∧
      (∀ l, stf pinv eta2 G l = ‖(F * G) l l‖) := by
  have hu := (gram_posDef h G).isUnit
  have hdet := (Matrix.isUnit_iff_isUnit_det _).1 hu
  have hinv := pinv_eq_inv hu hp
  refine ⟨Gᴴ * (gram eta2 G)⁻¹, ?_, ?_, ?_, ?_⟩
  · unfold IsNTF
    change Gᴴ * (gram eta2 G)⁻¹ * gram eta2 G = Gᴴ
    rw [Matrix.mul_assoc, Matrix.nonsing_inv_mul _ hdet, Matrix.mul_one]
  · intro F' hF'
    have hF'' : F' * gram eta2 G = Gᴴ := hF'
    rw [← hF'', Matrix.mul_assoc, Matrix.mul_nonsing_inv _ hdet, Matrix.mul_one]
  · intro l n
    unfold ntf
    rw [hinv, Matrix.of_apply]
  · intro l
    unfold stf
    rw [hinv, Matrix.mul_assoc, Matrix.mul_apply]

/-- **C41** The signal transfer function lies in `[0, 1)`, for any number of inputs. -/
theorem C41_bounds {eta2 : ℝ} (h : 0 < eta2) (G : Matrix (Fin Nt) (Fin L) ℂ)
    (pinv : Matrix (Fin Nt) (Fin Nt) ℂ → Matrix (Fin Nt) (Fin Nt) ℂ) (hp : IsPinv (gram eta2 G) (pinv (gram eta2 G))) (l : Fin L) :
    0 ≤ stf pinv eta2 G l ∧ stf pinv eta2 G l < 1 := by
  refine ⟨norm_nonneg _, ?_⟩
  have hinv := pinv_eq_inv (gram_posDef h G).isUnit hp
  have e : stf pinv eta2 G l = ‖(Gᴴ * (gram eta2 G)⁻¹ * G) l l‖ := by
    unfold stf
    rw [hinv, Matrix.mul_assoc, Matrix.mul_apply]
  rw [e]
  have h0 : 0 ≤ (Gᴴ * (gram eta2 G)⁻¹ * G) l l :=
    ((gram_posDef h G).inv.posSemidef.conjTranspose_mul_mul_same G).diag_nonneg
  have h1 : 0 < ((1 : Matrix (Fin L) (Fin L) ℂ) - Gᴴ * (gram eta2 G)⁻¹ * G) l l := by
    rw [stf_complement h]
    exact ((gram'_posDef h G).inv.smul (show (0 : ℂ) < eta2 by exact_mod_cast h)).diag_pos
  rw [Matrix.sub_apply, Matrix.one_apply_eq, sub_pos] at h1
  have h2 := Complex.norm_of_nonneg' h0
  have h3 := (Complex.lt_def.1 h1).1
  rw [← h2] at h3
  simpa using h3

/-- **C41** One input: `STF = ‖G‖² / (‖G‖² + eta2)` and `NTF_n = |G_n| / (‖G‖² + eta2)`. -/
theorem C41_single_input {eta2 : ℝ} (h : 0 < eta2) (hL : L = 1) (G : Matrix (Fin Nt) (Fin L) ℂ)
    (pinv : Matrix (Fin Nt) (Fin Nt) ℂ → Matrix (Fin Nt) (Fin Nt) ℂ) (hp : IsPinv (gram eta2 G) (pinv (gram eta2 G))) (l : Fin L) :
    stf pinv eta2 G l = (∑ n, ‖G n l‖ ^ 2) / (∑ n, ‖G n l‖ ^ 2 + eta2) ∧
      ∀ n, ntf pinv eta2 G l n = ‖G n l‖ / (∑ n, ‖G n l‖ ^ 2 + eta2) := by
  subst hL
  obtain rfl : l = 0 := Subsingleton.elim _ _
  have hinv := pinv_eq_inv (gram_posDef h G).isUnit hp
  have hpos : 0 < ∑ n, ‖G n 0‖ ^ 2 + eta2 := by positivity
  set σ := ∑ n, ‖G n 0‖ ^ 2 + eta2 with hσ
  have hσc : (σ : ℂ) ≠ 0 := by exact_mod_cast hpos.ne'
  have hg : gram' eta2 G 0 0 = (σ : ℂ) := by
    unfold gram'
    rw [Matrix.add_apply, Matrix.mul_apply, Matrix.smul_apply, Matrix.one_apply_eq, hσ]
    push_cast
    congr 1
    · refine Finset.sum_congr rfl fun n _ => ?_
      rw [Matrix.conjTranspose_apply, mul_comm]
      exact (Complex.mul_conj' (G n 0))
    · simp
  have hF : ∀ n, (Gᴴ * (gram eta2 G)⁻¹) 0 n = star (G n 0) / σ := by
    intro n
    have h1 := congrFun (congrFun (push_through h G) 0) n
    rw [Matrix.mul_apply, Fin.sum_univ_one, hg, Matrix.conjTranspose_apply] at h1
    rw [← h1]
    field_simp
  constructor
  · have e : stf pinv eta2 G 0 = ‖(Gᴴ * (gram eta2 G)⁻¹ * G) 0 0‖ := by
      unfold stf
      rw [hinv, Matrix.mul_assoc, Matrix.mul_apply]
    rw [e, Matrix.mul_apply]
    have e2 : ∑ n, (Gᴴ * (gram eta2 G)⁻¹) 0 n * G n 0 = (((∑ n, ‖G n 0‖ ^ 2) / σ : ℝ) : ℂ) := by
      push_cast
      rw [Finset.sum_div]
      refine Finset.sum_congr rfl fun n _ => ?_
      rw [hF, div_mul_eq_mul_div, mul_comm]
      congr 1
      exact Complex.mul_conj' (G n 0)
    rw [e2, Complex.norm_real, Real.norm_of_nonneg (by positivity)]
  · intro n
    unfold ntf
    rw [hinv, Matrix.of_apply, hF, norm_div, norm_star, Complex.norm_real, Real.norm_of_nonneg hpos.le]

/-- **C41** One input: the signal transfer function grows strictly with `‖G‖` and falls strictly with `eta2` (for
`G ≠ 0`). -/
theorem C41_monotone {eta2 eta2' : ℝ} (h : 0 < eta2) (h' : 0 < eta2') {Nt' : ℕ}
    (G : Matrix (Fin Nt) (Fin 1) ℂ) (G' : Matrix (Fin Nt') (Fin 1) ℂ)
    (pinv : Matrix (Fin Nt) (Fin Nt) ℂ → Matrix (Fin Nt) (Fin Nt) ℂ) (hp : IsPinv (gram eta2 G) (pinv (gram eta2 G)))
    (pinv' : Matrix (Fin Nt') (Fin Nt') ℂ → Matrix (Fin Nt') (Fin Nt') ℂ) (hp' : IsPinv (gram eta2' G') (pinv' (gram eta2' G'))) :
    stf pinv eta2 G 0 < stf pinv' eta2' G' 0 ↔ (∑ n, ‖G n 0‖ ^ 2) * eta2' < (∑ n, ‖G' n 0‖ ^ 2) * eta2 := by
  rw [(C41_single_input h rfl G pinv hp 0).1, (C41_single_input h' rfl G' pinv' hp' 0).1,
    div_lt_div_iff₀ (by positivity) (by positivity)]
  constructor <;> intro h <;> nlinarith

/-- **C41** One input: the signal transfer function is 1/2 exactly where `‖G‖² = eta2`. -/
theorem C41_half {eta2 : ℝ} (h : 0 < eta2) (hL : L = 1) (G : Matrix (Fin Nt) (Fin L) ℂ)
    (pinv : Matrix (Fin Nt) (Fin Nt) ℂ → Matrix (Fin Nt) (Fin Nt) ℂ) (hp : IsPinv (gram eta2 G) (pinv (gram eta2 G))) (l : Fin L) :
    stf pinv eta2 G l = 1 / 2 ↔ ∑ n, ‖G n l‖ ^ 2 = eta2 := by
  rw [(C41_single_input h hL G pinv hp l).1, div_eq_div_iff (by positivity) (by norm_num)]
  constructor <;> intro h <;> linarith

/-- **C41** Choosing `eta2 = analog_system.eta2(BW)` for a system with one input and any transfer function that does not
vanish at `BW` places the half-amplitude point of the estimator at `BW`. -/
theorem C41_band_edge (g : Sys ℂ) (hL : g.L = 1) (BW : ℝ) (h : g.tfm (jw (2 * Real.pi * BW)) ≠ 0)
    (pinv : Matrix (Fin g.Nt) (Fin g.Nt) ℂ → Matrix (Fin g.Nt) (Fin g.Nt) ℂ)
    (hp : IsPinv (gram (g.eta2 BW) (g.tfm (jw (2 * Real.pi * BW)))) (pinv (gram (g.eta2 BW) (g.tfm (jw (2 * Real.pi * BW))))))
    (l : Fin g.L) :
    stf pinv (g.eta2 BW) (g.tfm (jw (2 * Real.pi * BW))) l = 1 / 2 := by
  have hone : ∀ (f : Fin g.L → ℝ), ∑ l', f l' = f l := by
    intro f
    refine Fintype.sum_eq_single l fun x hx => absurd ?_ hx
    apply Fin.ext
    have := x.isLt
    have := l.isLt
    omega
  have e : g.eta2 BW = ∑ n, ‖g.tfm (jw (2 * Real.pi * BW)) n l‖ ^ 2 := by
    unfold Sys.eta2
    exact Finset.sum_congr rfl fun n _ => hone _
  have hpos : 0 < g.eta2 BW := by
    rw [e]
    obtain ⟨n, hn⟩ : ∃ n, g.tfm (jw (2 * Real.pi * BW)) n l ≠ 0 := by
      by_contra hcon
      push Not at hcon
      apply h
      ext n l'
      have : l' = l := by
        apply Fin.ext
        have := l'.isLt
        have := l.isLt
        omega
      rw [this, hcon n]
      rfl
    exact Finset.sum_pos' (fun _ _ => by positivity) ⟨n, Finset.mem_univ _, by
      have := norm_pos_iff.2 hn
      positivity⟩
  rw [C41_half hpos hL _ pinv hp l, e]

/-- **C41** The noise amplification of every estimate is bounded by `eta2` alone: `Σ_n NTF_ln² ≤ 1 / (4 eta2)`. -/
theorem C41_noise_bound {eta2 : ℝ} (h : 0 < eta2) (G : Matrix (Fin Nt) (Fin L) ℂ)
    (pinv : Matrix (Fin Nt) (Fin Nt) ℂ → Matrix (Fin Nt) (Fin Nt) ℂ) (hp : IsPinv (gram eta2 G) (pinv (gram eta2 G))) (l : Fin L) :
    ∑ n, ntf pinv eta2 G l n ^ 2 ≤ 1 / (4 * eta2) := by
  have hinv := pinv_eq_inv (gram_posDef h G).isUnit hp
  have h1 := (ntf_gap h G).diag_nonneg (i := l)
  rw [Matrix.sub_apply, Matrix.smul_apply, Matrix.one_apply_eq, smul_eq_mul, mul_one, sub_nonneg, Matrix.mul_apply] at h1
  have e : ∑ n, (Gᴴ * (gram eta2 G)⁻¹) l n * (Gᴴ * (gram eta2 G)⁻¹)ᴴ n l =
      ((∑ n, ntf pinv eta2 G l n ^ 2 : ℝ) : ℂ) := by
    push_cast
    refine Finset.sum_congr rfl fun n _ => ?_
    unfold ntf
    rw [hinv, Matrix.of_apply, Matrix.conjTranspose_apply]
    exact Complex.mul_conj' _
  rw [e] at h1
  have h2 : ((1 : ℂ) / (4 * eta2)) = ((1 / (4 * eta2) : ℝ) : ℂ) := by push_cast; ring
  rw [h2] at h1
  exact_mod_cast h1

/-- The assumption on `np.linalg.pinv` can be met on invertible matrices by the inverse. -/
theorem inv_isPinv {n : ℕ} {X : Matrix (Fin n) (Fin n) ℂ} (hX : IsUnit X) : IsPinv X X⁻¹ := by
  have hdet := (Matrix.isUnit_iff_isUnit_det X).1 hX
  refine ⟨?_, ?_, ?_, ?_⟩
  · rw [Matrix.mul_nonsing_inv X hdet, Matrix.one_mul]
  · rw [Matrix.nonsing_inv_mul X hdet, Matrix.one_mul]
  · rw [Matrix.mul_nonsing_inv X hdet, Matrix.conjTranspose_one]
  · rw [Matrix.nonsing_inv_mul X hdet, Matrix.conjTranspose_one]

/-- two outputs, one input -/
example : stf (fun X => X⁻¹) 25 (!![3; 4 * Complex.I] : Matrix (Fin 2) (Fin 1) ℂ) 0 = 1 / 2 := by
  rw [C41_half (by norm_num) rfl _ _ (inv_isPinv (gram_posDef (by norm_num) _).isUnit)]
  simp [Fin.sum_univ_two]
  norm_num

/-- An integrator with differential outputs and one control. -/
@[reducible] def exDiff : Sys ℂ where
  N := 1
  L := 1
  M := 1
  Mt := 1
  Nt := 2
  A := fun _ _ => 0
  B := fun _ _ => 1
  CT := fun i _ => if i = 0 then 1 else -1
  Gamma := some fun _ _ => 1
  GammaT := some fun _ _ => 1
  D := fun _ _ => 0
  Bt := fun _ _ => 0
  At := fun _ _ => 0

theorem exDiff_general (ω : ℝ) (hω : ω ≠ 0) (i : Fin 1) (j : Fin 1) : exDiff.generalAtf (jw ω) i j = 1 / jw ω := by
  have hj : jw ω ≠ 0 := by
    unfold jw
    exact mul_ne_zero (by exact_mod_cast hω) Complex.I_ne_zero
  have e : (jw ω • (1 : Matrix (Fin 1) (Fin 1) ℂ) - toM 1 1 exDiff.A) * ((1 / jw ω) • 1) = 1 := by
    ext a b
    obtain rfl : a = 0 := Subsingleton.elim _ _
    obtain rfl : b = 0 := Subsingleton.elim _ _
    simp [toM, hj]
  have e2 : exDiff.generalAtf (jw ω) = ((1 / jw ω) • 1 : Matrix (Fin 1) (Fin 1) ℂ) := Matrix.inv_eq_right_inv e
  rw [e2]
  obtain rfl : i = 0 := Subsingleton.elim _ _
  obtain rfl : j = 0 := Subsingleton.elim _ _
  simp

theorem exDiff_tfm (ω : ℝ) (hω : ω ≠ 0) (i : Fin 2) (j : Fin 1) :
    exDiff.tfm (jw ω) i j = (if (i : ℕ) = 0 then 1 else -1) / jw ω := by
  have h := exDiff_general ω hω 0 0
  have e : exDiff.tfm (jw ω) i j = exDiff.D i j + ∑ k : Fin 1, exDiff.CT i k * ∑ m : Fin 1,
      exDiff.generalAtf (jw ω) k m * exDiff.B m j := rfl
  rw [e, Fin.sum_univ_one, Fin.sum_univ_one, h]
  simp only
  split_ifs <;> ring

/-- the half-amplitude point of this system is at 1 Hz -/
example (l : Fin 1) :
    stf (fun X => X⁻¹) (exDiff.eta2 1) (exDiff.tfm (jw (2 * Real.pi * 1))) l = 1 / 2 := by
  have hpi : (2 * Real.pi * 1 : ℝ) ≠ 0 := by positivity
  have hne : exDiff.tfm (jw (2 * Real.pi * 1)) ≠ 0 := by
    intro h
    have h1 := exDiff_tfm _ hpi 0 0
    have h2 : exDiff.tfm (jw (2 * Real.pi * 1)) (0 : Fin 2) (0 : Fin 1) = 0 := by rw [h]; rfl
    rw [h1] at h2
    have hj : jw (2 * Real.pi * 1) ≠ 0 := by
      unfold jw
      exact mul_ne_zero (by exact_mod_cast hpi) Complex.I_ne_zero
    rw [if_pos (by rfl)] at h2
    exact one_div_ne_zero hj h2
  refine C41_band_edge exDiff rfl 1 hne _ (inv_isPinv (gram_posDef ?_ _).isUnit) l
  unfold Sys.eta2
  refine lt_of_lt_of_le ?_ (Finset.single_le_sum (fun _ _ => by positivity) (Finset.mem_univ (0 : Fin 2)))
  refine lt_of_lt_of_le ?_ (Finset.single_le_sum (fun _ _ => by positivity) (Finset.mem_univ (0 : Fin 1)))
  rw [exDiff_tfm _ hpi]
  have hj : jw (2 * Real.pi * 1) ≠ 0 := by
    unfold jw
    exact mul_ne_zero (by exact_mod_cast hpi) Complex.I_ne_zero
  have : 0 < ‖(if ((0 : Fin 2) : ℕ) = 0 then 1 else -1) / jw (2 * Real.pi * 1)‖ := by
    rw [norm_pos_iff, if_pos (by rfl)]
    exact one_div_ne_zero hj
  positivity

/-! ### C75 -/

/-- **C75 is false**: `control_signal_transfer_function_matrix` leaves out the output matrix, so an integrator observed
through a gain of 2 is reported with gain 1. -/
theorem C75_matrix_false : ∃ (g : Sys ℂ) (Γ : ℕ → ℕ → ℂ) (G : Matrix (Fin g.N) (Fin g.M) ℂ), g.Gamma = some Γ ∧
    g.N = 1 ∧ g.Nt = 1 ∧ g.M = 1 ∧ g.ctfm (jw 1) = .ok G ∧
    ∀ (i : Fin g.N) (i' : Fin g.Nt) (m : Fin g.M),
      ‖(toM g.Nt g.N g.CT * (jw 1 • (1 : Matrix (Fin g.N) (Fin g.N) ℂ) - toM g.N g.N g.A)⁻¹ * toM g.N g.M Γ) i' m‖ =
        2 * ‖G i m‖ ∧ G i m ≠ 0 := by
  refine ⟨{ exDiff with Nt := 1, CT := fun _ _ => 2 }, fun _ _ => 1, _, rfl, rfl, rfl, rfl, rfl, ?_⟩
  intro i i' m
  have hj : ‖jw 1‖ = 1 := by simp [jw]
  have hj0 : jw 1 ≠ 0 := by rw [← norm_pos_iff, hj]; norm_num
  have e : (jw 1 • (1 : Matrix (Fin 1) (Fin 1) ℂ) - toM 1 1 fun _ _ => 0)⁻¹ = (1 / jw 1) • 1 := by
    apply Matrix.inv_eq_right_inv
    ext a b
    obtain rfl : a = 0 := Subsingleton.elim _ _
    obtain rfl : b = 0 := Subsingleton.elim _ _
    simp [toM, hj0]
  have e1 : ∀ i m : Fin 1, (((1 / jw 1) • (1 : Matrix (Fin 1) (Fin 1) ℂ)) * toM 1 1 (fun _ _ => (1 : ℂ)) :
      Matrix (Fin 1) (Fin 1) ℂ) i m = 1 / jw 1 := by
    intro i m
    simp [toM]
  have e2 : ∀ i m : Fin 1, (toM 1 1 (fun _ _ => (2 : ℂ)) * ((1 / jw 1) • (1 : Matrix (Fin 1) (Fin 1) ℂ)) *
      toM 1 1 (fun _ _ => (1 : ℂ)) : Matrix (Fin 1) (Fin 1) ℂ) i m = 2 * (1 / jw 1) := by
    intro i m
    simp [toM, Matrix.mul_apply, mul_comm]
  rw [← e] at e1 e2
  constructor
  · refine (congrArg norm (e2 i' m)).trans ?_
    refine Eq.trans ?_ (congrArg (fun z => 2 * ‖z‖) (e1 i m)).symm
    simp
  · intro hc
    exact one_div_ne_zero hj0 ((e1 i m).symm.trans hc)

/-- **C75 is false**: whenever the numbers of states and of outputs differ, the estimator's control-signal transfer function
raises instead of returning the documented product. -/
theorem C75_shape_false (g : Sys ℂ) (Γ : ℕ → ℕ → ℂ) (hΓ : g.Gamma = some Γ) (hM : 0 < g.M) (hN : g.N ≠ g.Nt)
    (eta2 ω : ℝ) : g.controlTransfer eta2 ω = .error .valueError := by
  unfold Sys.controlTransfer Sys.ctfm
  rw [hΓ]
  dsimp only
  rw [if_pos]
  intro h
  exact hN (Nat.eq_of_mul_eq_mul_right hM h)

example : exDiff.controlTransfer 1 1 = .error .valueError :=
  C75_shape_false exDiff (fun _ _ => 1) rfl (by norm_num [exDiff]) (by norm_num [exDiff]) 1 1

/-- **C75 (part that holds)** when all states are outputs (`CT` the identity), the estimator's control-signal transfer
function is the magnitude of `F C^T (iωI - A)^{-1} Γ` with `F` the noise transfer function of the documentation.  Missing:
any other output matrix. -/
theorem C75_partial (g : Sys ℂ) (Γ : ℕ → ℕ → ℂ) (hΓ : g.Gamma = some Γ) (hN : g.Nt = g.N)
    (hCT : ∀ i < g.N, ∀ j < g.N, g.CT i j = if i = j then 1 else 0) {eta2 : ℝ} (h : 0 < eta2) (ω : ℝ) :
    ∃ (F : Matrix (Fin g.L) (Fin g.Nt) ℂ) (X : Matrix (Fin g.L) (Fin g.M) ℝ), IsNTF eta2 (g.tfm (jw ω)) F ∧
      g.controlTransfer eta2 ω = .ok X ∧ ∀ l m, X l m =
        ‖(F * (toM g.Nt g.N g.CT * (jw ω • (1 : Matrix (Fin g.N) (Fin g.N) ℂ) - toM g.N g.N g.A)⁻¹ *
          toM g.N g.M Γ)) l m‖ := by
  have hu := (gram_posDef h (g.tfm (jw ω))).isUnit
  have hdet := (Matrix.isUnit_iff_isUnit_det _).1 hu
  refine ⟨(g.tfm (jw ω))ᴴ * (gram eta2 (g.tfm (jw ω)))⁻¹, Matrix.of fun l m =>
      ‖∑ n : Fin g.Nt, ((g.tfm (jw ω))ᴴ * (gram eta2 (g.tfm (jw ω)))⁻¹) l n *
        (if h : (n : ℕ) < g.N then (g.generalAtf (jw ω) * toM g.N g.M Γ) ⟨n, h⟩ m else 0)‖, ?_, ?_, ?_⟩
  · unfold IsNTF
    change (g.tfm (jw ω))ᴴ * (gram eta2 (g.tfm (jw ω)))⁻¹ * gram eta2 (g.tfm (jw ω)) = (g.tfm (jw ω))ᴴ
    rw [Matrix.mul_assoc, Matrix.nonsing_inv_mul _ hdet, Matrix.mul_one]
  · unfold Sys.controlTransfer Sys.ctfm
    rw [hΓ]
    dsimp only
    rw [if_neg (by rw [hN]; exact not_not.2 rfl), if_neg (not_not.2 hu)]
  · intro l m
    rw [Matrix.of_apply, Matrix.mul_apply]
    congr 1
    refine Finset.sum_congr rfl fun n _ => ?_
    congr 1
    have hn : (n : ℕ) < g.N := by have := n.isLt; omega
    rw [dif_pos hn, Matrix.mul_assoc (toM g.Nt g.N g.CT), Matrix.mul_apply (M := toM g.Nt g.N g.CT)]
    symm
    rw [Finset.sum_eq_single ⟨n, hn⟩]
    · have : toM g.Nt g.N g.CT n ⟨n, hn⟩ = 1 := by
        simp only [toM, Matrix.of_apply]
        rw [hCT _ hn _ hn, if_pos rfl]
      rw [this, one_mul]
      rfl
    · intro b _ hb
      have : toM g.Nt g.N g.CT n b = 0 := by
        simp only [toM, Matrix.of_apply]
        rw [hCT _ hn _ b.isLt, if_neg]
        intro hc
        exact hb (Fin.ext hc.symm)
      rw [this, zero_mul]
    · intro hc
      exact absurd (Finset.mem_univ _) hc

example : ∃ (g : Sys ℂ) (Γ : ℕ → ℕ → ℂ), g.Gamma = some Γ ∧ g.Nt = g.N ∧ 0 < g.N ∧
    ∀ i < g.N, ∀ j < g.N, g.CT i j = if i = j then 1 else 0 :=
  ⟨{ exDiff with N := 2, CT := fun i j => if i = j then 1 else 0 }, fun _ _ => 1, rfl, rfl, by norm_num,
    fun _ _ _ _ => rfl⟩

/-! ### C76 -/

/-- **C76 is false**: for an integrator with differential outputs, a disturbance of the state reaches the estimate, but the
reported general transfer function is zero, because magnitudes of the noise transfer function are summed without their
signs. -/
theorem C76_false : ∃ (g : Sys ℂ) (l : Fin g.L) (x : Fin g.N)
    (pinv : Matrix (Fin g.Nt) (Fin g.Nt) ℂ → Matrix (Fin g.Nt) (Fin g.Nt) ℂ) (F : Matrix (Fin g.L) (Fin g.Nt) ℂ),
    IsPinv (gram 2 (g.tfm (jw 1))) (pinv (gram 2 (g.tfm (jw 1)))) ∧ IsNTF 2 (g.tfm (jw 1)) F ∧
    (∀ (n : Fin g.Nt), ntf pinv 2 (g.tfm (jw 1)) l n = ‖F l n‖) ∧
    g.generalTransfer pinv 2 1 l x = 0 ∧ ‖(F * g.generalTfm (jw 1)) l x‖ = 1 / 2 := by
  have hpos : (0 : ℝ) < 2 := by norm_num
  have hu := (gram_posDef hpos (exDiff.tfm (jw 1))).isUnit
  have hdet := (Matrix.isUnit_iff_isUnit_det _).1 hu
  have hp := inv_isPinv hu
  have hjw : jw 1 = Complex.I := by simp [jw]
  have hI : ∀ z : ℂ, z / Complex.I = -(z * Complex.I) := fun z => Complex.div_I z
  -- the transfer function vector
  have hG : ∀ (n : Fin 2) (l : Fin 1), exDiff.tfm (jw 1) n l = if (n : ℕ) = 0 then -Complex.I else Complex.I := by
    intro n l
    rw [exDiff_tfm 1 one_ne_zero, hjw, hI]
    split_ifs <;> simp
  have hgen : ∀ (n : Fin 2) (x : Fin 1), exDiff.generalTfm (jw 1) n x = if (n : ℕ) = 0 then -Complex.I else Complex.I := by
    intro n x
    have h := exDiff_general 1 one_ne_zero 0 x
    have e : exDiff.generalTfm (jw 1) n x = ∑ k : Fin 1, exDiff.CT n k * exDiff.generalAtf (jw 1) k x := rfl
    rw [e, Fin.sum_univ_one, h, hjw, hI]
    simp only
    split_ifs <;> simp
  have hn : ∀ (n : Fin 2) (l : Fin 1), ntf (fun X => X⁻¹) 2 (exDiff.tfm (jw 1)) l n = 1 / 4 := by
    intro n l
    rw [(C41_single_input hpos rfl (exDiff.tfm (jw 1)) (fun X => X⁻¹) hp l).2 n]
    have e : ∑ n : Fin exDiff.Nt, ‖exDiff.tfm (jw 1) n l‖ ^ 2 = ∑ n : Fin 2, (1 : ℝ) :=
      Finset.sum_congr rfl fun n _ => by rw [hG]; split_ifs <;> simp
    rw [e, hG]
    have e2 : ‖(if ((n : Fin 2) : ℕ) = 0 then -Complex.I else Complex.I)‖ = 1 := by split_ifs <;> simp
    rw [e2]
    norm_num
  refine ⟨exDiff, (0 : Fin 1), (0 : Fin 1), fun X => X⁻¹,
    (exDiff.tfm (jw 1))ᴴ * (gram 2 (exDiff.tfm (jw 1)))⁻¹, hp, ?_, ?_, ?_, ?_⟩
  · unfold IsNTF
    change (exDiff.tfm (jw 1))ᴴ * (gram 2 (exDiff.tfm (jw 1)))⁻¹ * gram 2 (exDiff.tfm (jw 1)) = (exDiff.tfm (jw 1))ᴴ
    rw [Matrix.mul_assoc, Matrix.nonsing_inv_mul _ hdet, Matrix.mul_one]
  · intro n
    rfl
  · have e : exDiff.generalTransfer (fun X => X⁻¹) 2 1 (0 : Fin 1) (0 : Fin 1) =
      ∑ n : Fin 2, ((ntf (fun X => X⁻¹) 2 (exDiff.tfm (jw 1)) (0 : Fin 1) n : ℝ) : ℂ) *
        exDiff.generalTfm (jw 1) n (0 : Fin 1) := rfl
    rw [e, Fin.sum_univ_two, hn, hn, hgen, hgen]
    simp
  · have e : ((exDiff.tfm (jw 1))ᴴ * (gram 2 (exDiff.tfm (jw 1)))⁻¹ * exDiff.generalTfm (jw 1)) (0 : Fin 1) (0 : Fin 1) =
        ((exDiff.tfm (jw 1))ᴴ * (gram 2 (exDiff.tfm (jw 1)))⁻¹ * exDiff.tfm (jw 1)) (0 : Fin 1) (0 : Fin 1) := by
      rw [Matrix.mul_apply, Matrix.mul_apply]
      refine Finset.sum_congr rfl fun n _ => ?_
      rw [hG n 0, hgen n 0]
    rw [e]
    have h2 := (C41_single_input hpos rfl (exDiff.tfm (jw 1)) (fun X => X⁻¹) hp (0 : Fin 1)).1
    have e3 : ∑ n : Fin exDiff.Nt, ‖exDiff.tfm (jw 1) n (0 : Fin 1)‖ ^ 2 = ∑ n : Fin 2, (1 : ℝ) :=
      Finset.sum_congr rfl fun n _ => by rw [hG]; split_ifs <;> simp
    have e4 : stf (fun X => X⁻¹) 2 (exDiff.tfm (jw 1)) (0 : Fin 1) =
        ‖((exDiff.tfm (jw 1))ᴴ * (gram 2 (exDiff.tfm (jw 1)))⁻¹ * exDiff.tfm (jw 1)) (0 : Fin 1) (0 : Fin 1)‖ := by
      unfold stf
      rw [Matrix.mul_assoc, Matrix.mul_apply]
    rw [← e4, h2, e3]
    norm_num

/-- **C76 (part that holds)** with one output, the magnitude of the reported general transfer function is that of the
transfer function from the state to the estimate.  Missing: several outputs. -/
theorem C76_partial (g : Sys ℂ) (hN : g.Nt = 1) {eta2 : ℝ} (h : 0 < eta2) (ω : ℝ)
    (pinv : Matrix (Fin g.Nt) (Fin g.Nt) ℂ → Matrix (Fin g.Nt) (Fin g.Nt) ℂ)
    (hp : IsPinv (gram eta2 (g.tfm (jw ω))) (pinv (gram eta2 (g.tfm (jw ω))))) :
    ∃ F, IsNTF eta2 (g.tfm (jw ω)) F ∧ ∀ l x,
      ‖g.generalTransfer pinv eta2 ω l x‖ = ‖(F * (toM g.Nt g.N g.CT *
        (jw ω • (1 : Matrix (Fin g.N) (Fin g.N) ℂ) - toM g.N g.N g.A)⁻¹)) l x‖ := by
  obtain ⟨F, hF, -, hn, -⟩ := C41_spec h (g.tfm (jw ω)) pinv hp
  refine ⟨F, hF, fun l x => ?_⟩
  have hone : ∀ (f : Fin g.Nt → ℂ), ∑ n, f n = f ⟨0, by omega⟩ := by
    intro f
    refine Fintype.sum_eq_single _ fun n hn' => absurd ?_ hn'
    apply Fin.ext
    have := n.isLt
    change (n : ℕ) = 0
    omega
  unfold Sys.generalTransfer
  rw [Matrix.mul_apply, Matrix.mul_apply, hone, hone, norm_mul, norm_mul, Matrix.map_apply, hn, Complex.norm_real,
    norm_norm]
  rfl

example : ∃ g : Sys ℂ, g.Nt = 1 ∧ 0 < g.N ∧ g.L = 1 :=
  ⟨{ exDiff with Nt := 1 }, rfl, by norm_num [exDiff], rfl⟩

/-- `C41_bounds`, `C41_single_input`, `C41_spec`, `C41_monotone`: two outputs and one input, with the inverse as the
pseudo-inverse; the same outputs with a larger `eta2` have a smaller transfer function. -/
example : stf (fun X => X⁻¹) 25 (!![3; 4 * Complex.I] : Matrix (Fin 2) (Fin 1) ℂ) 0 < 1 ∧
    ntf (fun X => X⁻¹) 25 (!![3; 4 * Complex.I] : Matrix (Fin 2) (Fin 1) ℂ) 0 0 = 3 / 50 ∧
    (∃ F, IsNTF 25 (!![3; 4 * Complex.I] : Matrix (Fin 2) (Fin 1) ℂ) F) ∧
    stf (fun X => X⁻¹) 30 (!![3; 4 * Complex.I] : Matrix (Fin 2) (Fin 1) ℂ) 0 <
      stf (fun X => X⁻¹) 25 (!![3; 4 * Complex.I] : Matrix (Fin 2) (Fin 1) ℂ) 0 := by
  have h25 : IsPinv (gram 25 (!![3; 4 * Complex.I] : Matrix (Fin 2) (Fin 1) ℂ)) (gram 25 !![3; 4 * Complex.I])⁻¹ :=
    inv_isPinv (gram_posDef (by norm_num) _).isUnit
  have h30 : IsPinv (gram 30 (!![3; 4 * Complex.I] : Matrix (Fin 2) (Fin 1) ℂ)) (gram 30 !![3; 4 * Complex.I])⁻¹ :=
    inv_isPinv (gram_posDef (by norm_num) _).isUnit
  refine ⟨(C41_bounds (by norm_num) _ _ h25 0).2, ?_, ?_, ?_⟩
  · rw [(C41_single_input (by norm_num) rfl _ _ h25 0).2 0]
    simp [Fin.sum_univ_two]
    norm_num
  · obtain ⟨F, hF, -⟩ := C41_spec (by norm_num) _ _ h25
    exact ⟨F, hF⟩
  · rw [C41_monotone (by norm_num) (by norm_num) _ _ _ h30 _ h25]
    simp [Fin.sum_univ_two]
    norm_num


end Cbadc.Analog
