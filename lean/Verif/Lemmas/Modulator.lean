import Mathlib.Analysis.SpecialFunctions.Trigonometric.Deriv
import Mathlib.Analysis.Calculus.Deriv.Prod
import Mathlib.Analysis.Calculus.Deriv.Mul
import Mathlib.Analysis.Calculus.Deriv.Add
import Mathlib.Analysis.Matrix.Normed
import Mathlib.Tactic.LinearCombination
import Verif.Model.Modulator
import Verif.Spec.Modulator

/-! # Lemmas about modulated systems -/

namespace Cbadc.Modulator

open Matrix Analog Modulator.Spec

variable {h N : ℕ} (e : Fin h ⊕ Fin h ≃ Fin N)

theorem quarterTurn_sq : quarterTurn e * quarterTurn e = -1 := by
  rw [quarterTurn, Matrix.reindex_apply, Matrix.submatrix_mul_equiv, Matrix.fromBlocks_multiply]
  simp only [Matrix.zero_mul, Matrix.mul_one, zero_add, Matrix.one_mul, add_zero, Matrix.mul_zero]
  rw [show Matrix.fromBlocks (-1 : Matrix (Fin h) (Fin h) ℝ) 0 0 (-1) = -1 by
    rw [← Matrix.fromBlocks_one, Matrix.fromBlocks_neg, neg_zero]]
  rw [Matrix.submatrix_neg]
  simp

theorem quarterTurn_transpose : (quarterTurn e)ᵀ = -quarterTurn e := by
  rw [quarterTurn, Matrix.transpose_reindex, Matrix.fromBlocks_transpose]
  ext i j
  simp [Matrix.fromBlocks]
  rcases e.symm i with a | a <;> rcases e.symm j with b | b <;> simp

theorem turn_add (a b : ℝ) : turn e (a + b) = turn e a * turn e b := by
  have hs := quarterTurn_sq e
  simp only [turn, add_mul, mul_add, Matrix.smul_mul, Matrix.mul_smul, Matrix.one_mul, Matrix.mul_one, hs, Real.cos_add, Real.sin_add]
  module

theorem turn_zero : turn e 0 = 1 := by simp [turn]

theorem turn_inv (a : ℝ) : turn e (-a) * turn e a = 1 := by rw [← turn_add, neg_add_cancel, turn_zero]

theorem turn_transpose (a : ℝ) : (turn e a)ᵀ = turn e (-a) := by
  simp [turn, quarterTurn_transpose]

theorem turn_commute {X : Matrix (Fin N) (Fin N) ℝ} (hX : Commute X (quarterTurn e)) (a : ℝ) : turn e a * X = X * turn e a := by
  simp only [turn, add_mul, mul_add, Matrix.smul_mul, Matrix.mul_smul, Matrix.one_mul, Matrix.mul_one, hX.eq]

theorem turn_deriv (w t : ℝ) (i j : Fin N) :
    HasDerivAt (fun t => turn e (-w * t) i j) ((-w • (quarterTurn e * turn e (-w * t))) i j) t := by
  have hl : HasDerivAt (fun t : ℝ => -w * t) (-w) t := by simpa using (hasDerivAt_id t).const_mul (-w)
  have hc := (hl.cos.mul_const ((1 : Matrix (Fin N) (Fin N) ℝ) i j)).add (hl.sin.mul_const (quarterTurn e i j))
  refine hc.congr_deriv ?_
  have hs := quarterTurn_sq e
  simp only [turn, mul_add, Matrix.mul_smul, Matrix.mul_one, hs]
  simp only [Matrix.smul_apply, Matrix.add_apply, Matrix.neg_apply, smul_eq_mul]
  ring

/-- the demodulated trajectory -/
theorem turn_hasDerivAt {w t : ℝ} {x : ℝ → Fin N → ℝ} {v : Fin N → ℝ} (hx : HasDerivAt x v t) :
    HasDerivAt (fun t => turn e (-w * t) *ᵥ x t)
      (turn e (-w * t) *ᵥ v - (w • quarterTurn e) *ᵥ (turn e (-w * t) *ᵥ x t)) t := by
  rw [hasDerivAt_pi] at hx ⊢
  intro i
  have hsum : HasDerivAt (fun t => ∑ j, turn e (-w * t) i j * x t j)
      (∑ j, ((-w • (quarterTurn e * turn e (-w * t))) i j * x t j + turn e (-w * t) i j * v j)) t :=
    HasDerivAt.fun_sum fun j _ => (turn_deriv e w t i j).mul (hx j)
  refine hsum.congr_deriv ?_
  rw [Finset.sum_add_distrib, Matrix.mulVec_mulVec, Pi.sub_apply]
  simp only [Matrix.mulVec, dotProduct, Matrix.smul_mul, Matrix.smul_apply, smul_eq_mul]
  simp only [neg_mul, Finset.sum_neg_distrib]
  ring

theorem shuffler_eq (hN : N = 2 * h) (k : ℕ) : shuffler N k = position h k := by
  subst hN
  rw [shuffler, position, Nat.mul_div_cancel_left h two_pos]

/-- the rotation between shuffling and its inverse is the turn of the pairs -/
theorem rotated_eq (hN : N = 2 * h) (phi : ℝ) (x : ℕ → ℝ) (k : Fin N) :
    dot N (rotation N phi) (fun k => x (shuffler N k)) (deShuffler N k) = (turn (pairs hN) phi *ᵥ fun i => x i) k := by
  have h2 : N / 2 = h := by omega
  have hdot : ∀ r, dot N (rotation N phi) (fun k => x (shuffler N k)) r =
      ∑ j : Fin h, (rotation N phi r j * x (pairs hN (Sum.inl j)) + rotation N phi r (j + h) * x (pairs hN (Sum.inr j))) := by
    intro r
    rw [dot, Finset.sum_congr rfl fun k _ => by rw [shuffler_eq hN], show Finset.range N = Finset.range (h + h) by rw [hN, two_mul],
      Finset.sum_range_add, Finset.sum_add_distrib, Finset.sum_range, Finset.sum_range]
    congr 1
    refine Finset.sum_congr rfl fun j _ => ?_
    rw [Nat.add_comm h j]
    rfl
  have hturn : (turn (pairs hN) phi *ᵥ fun i => x i) k = ∑ j : Fin h,
      (turn (pairs hN) phi k (pairs hN (Sum.inl j)) * x (pairs hN (Sum.inl j)) +
        turn (pairs hN) phi k (pairs hN (Sum.inr j)) * x (pairs hN (Sum.inr j))) := by
    rw [Matrix.mulVec, dotProduct, ← Equiv.sum_comp (pairs hN), Fintype.sum_sum_type, Finset.sum_add_distrib]
  rw [hdot, hturn]
  obtain ⟨p, rfl⟩ := (pairs hN).surjective k
  have hde : (deShuffler N (pairs hN p) : ℕ) = Sum.elim (fun j : Fin h => (j : ℕ)) (fun j : Fin h => j + h) p := by
    rcases p with ⟨j, hj⟩ | ⟨j, hj⟩
    · show deShuffler N (position h j) = j
      rw [deShuffler, h2]
      unfold position
      split <;> split <;> omega
    · show deShuffler N (position h (j + h)) = j + h
      rw [deShuffler, h2]
      unfold position
      split <;> split <;> omega
  rw [hde]
  refine Finset.sum_congr rfl fun j _ => ?_
  rcases p with i | i
  · have hi := i.2
    have hj := j.2
    have e1 : rotation N phi (i : ℕ) (j : ℕ) = if i = j then Real.cos phi else 0 := by
      rw [rotation, h2, if_neg (by omega), if_neg (by omega)]
      simp only [Fin.ext_iff]
    have e2 : rotation N phi (i : ℕ) (j + h : ℕ) = if i = j then -Real.sin phi else 0 := by
      rw [rotation, h2, if_neg (by omega), if_pos (by omega), Nat.add_sub_cancel]
      simp only [Fin.ext_iff]
      split <;> simp
    have e3 : turn (pairs hN) phi (pairs hN (Sum.inl i)) (pairs hN (Sum.inl j)) = if i = j then Real.cos phi else 0 := by
      simp [turn, quarterTurn, Matrix.one_apply, EmbeddingLike.apply_eq_iff_eq]
    have e4 : turn (pairs hN) phi (pairs hN (Sum.inl i)) (pairs hN (Sum.inr j)) = if i = j then -Real.sin phi else 0 := by
      by_cases hij : i = j <;> simp [turn, quarterTurn, EmbeddingLike.apply_eq_iff_eq, hij]
    rw [Sum.elim_inl, e1, e2, e3, e4]
  · have hi := i.2
    have hj := j.2
    have e1 : rotation N phi (i + h : ℕ) (j : ℕ) = if i = j then Real.sin phi else 0 := by
      rw [rotation, h2, if_pos (by omega), Nat.add_sub_cancel]
      simp only [Fin.ext_iff]
    have e2 : rotation N phi (i + h : ℕ) (j + h : ℕ) = if i = j then Real.cos phi else 0 := by
      rw [rotation, h2, if_neg (by omega), if_neg (by omega)]
      simp only [Fin.ext_iff, Nat.add_right_cancel_iff]
    have e3 : turn (pairs hN) phi (pairs hN (Sum.inr i)) (pairs hN (Sum.inl j)) = if i = j then Real.sin phi else 0 := by
      simp [turn, quarterTurn, Matrix.one_apply, EmbeddingLike.apply_eq_iff_eq]
    have e4 : turn (pairs hN) phi (pairs hN (Sum.inr i)) (pairs hN (Sum.inr j)) = if i = j then Real.cos phi else 0 := by
      simp [turn, quarterTurn, Matrix.one_apply, EmbeddingLike.apply_eq_iff_eq]
    rw [Sum.elim_inr, e1, e2, e3, e4]

end Cbadc.Modulator
