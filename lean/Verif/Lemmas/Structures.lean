import Verif.Model.Structures
import Verif.Props.AnalogSystem

/-! # Matrices of chain-of-integrators and leap-frog systems -/

namespace Cbadc.Analog
open Finset

theorem diag_low_entry (v : List ℝ) (r c : ℕ) :
    (diagLow v).f r c = if r = c + 1 then v.getD c 0 else 0 := rfl

theorem gammaT_diag (N : ℕ) (κ : ℕ → ℝ) (i j : ℕ) (hi : i < N) :
    gammaTOf N (fun i j => if i = j then κ i else 0) i j = if i = j then -(κ i / |κ i|) else 0 := by
  unfold gammaTOf
  have h : ∑ k ∈ range N, (-(if k = i then κ k else 0)) ^ 2 = κ i ^ 2 := by
    rw [Finset.sum_eq_single i]
    · simp
    · intro b _ hb; simp [hb]
    · intro h; exact absurd (mem_range.mpr hi) h
  simp only []
  rw [h, Real.sqrt_sq_eq_abs]
  by_cases hij : i = j
  · subst hij; simp [neg_div]
  · rw [if_neg (fun h => hij h.symm), if_neg hij]; simp

/-- the attributes of a successfully finished system with a single-column `kappa` -/
theorem finish_col (beta : List ℝ) (hb : beta ≠ []) (A : ℕ → ℕ → ℝ) (f : ℕ → ℕ → ℝ) :
    finish beta ⟨beta.length, A⟩ (.mat beta.length 1 f) =
      .ok ⟨beta.length, 1, beta.length, beta.length, beta.length, A,
        fun i _ => if i = 0 then beta.getD 0 0 else 0, fun i j => if i = j then 1 else 0,
        some (fun i j => if i = j then f i 0 else 0),
        some (gammaTOf beta.length fun i j => if i = j then f i 0 else 0),
        fun _ _ => 0, fun _ _ => 0, fun _ _ => 0⟩ := by
  unfold finish
  rw [if_neg hb]
  simp only [gammaOf, if_pos]
  exact (C21_entries _ _ _ _ _ _ _ _ _ _ (fun _ _ => 0) (fun _ _ => 0) (fun _ _ => 0)).2

theorem chain_eq (beta rho : List ℝ) (hb : beta ≠ []) (hr : rho.length = beta.length) (f : ℕ → ℕ → ℝ) :
    chainOfIntegrators beta rho (.mat beta.length 1 f) =
      .ok ⟨beta.length, 1, beta.length, beta.length, beta.length,
        fun r c => (if r = c then rho.getD r 0 else 0) + (if r = c + 1 then beta.tail.getD c 0 else 0),
        fun i _ => if i = 0 then beta.getD 0 0 else 0, fun i j => if i = j then 1 else 0,
        some (fun i j => if i = j then f i 0 else 0),
        some (gammaTOf beta.length fun i j => if i = j then f i 0 else 0),
        fun _ _ => 0, fun _ _ => 0, fun _ _ => 0⟩ := by
  have hl : beta.tail.length + 1 = beta.length := by
    cases beta with
    | nil => exact absurd rfl hb
    | cons a l => rfl
  have h : addSq (diag0 rho) (diagLow beta.tail) = .ok ⟨beta.length, fun r c =>
      (if r = c then rho.getD r 0 else 0) + (if r = c + 1 then beta.tail.getD c 0 else 0)⟩ := by
    unfold addSq
    rw [if_pos (show (diag0 rho).n = (diagLow beta.tail).n by
      show rho.length = beta.tail.length + 1; omega)]
    show Except.ok (Sq.mk rho.length _) = _
    rw [hr]
    rfl
  unfold chainOfIntegrators
  rw [h]
  exact finish_col beta hb _ f

theorem leap_eq (beta alpha rho : List ℝ) (hb : beta ≠ []) (ha : alpha.length + 1 = beta.length)
    (hr : rho.length = beta.length) (f : ℕ → ℕ → ℝ) :
    leapFrog beta alpha rho (.mat beta.length 1 f) =
      .ok ⟨beta.length, 1, beta.length, beta.length, beta.length,
        fun r c => ((if c = r + 1 then alpha.getD r 0 else 0) +
          (if r = c + 1 then beta.tail.getD c 0 else 0)) + (if r = c then rho.getD r 0 else 0),
        fun i _ => if i = 0 then beta.getD 0 0 else 0, fun i j => if i = j then 1 else 0,
        some (fun i j => if i = j then f i 0 else 0),
        some (gammaTOf beta.length fun i j => if i = j then f i 0 else 0),
        fun _ _ => 0, fun _ _ => 0, fun _ _ => 0⟩ := by
  have hl : beta.tail.length + 1 = beta.length := by
    cases beta with
    | nil => exact absurd rfl hb
    | cons a l => rfl
  have h : addSq (diagUp alpha) (diagLow beta.tail) = .ok ⟨beta.length, fun r c =>
      (if c = r + 1 then alpha.getD r 0 else 0) + (if r = c + 1 then beta.tail.getD c 0 else 0)⟩ := by
    unfold addSq
    rw [if_pos (show (diagUp alpha).n = (diagLow beta.tail).n by
      show alpha.length + 1 = beta.tail.length + 1; omega)]
    show Except.ok (Sq.mk (alpha.length + 1) _) = _
    rw [ha]
    rfl
  have h2 : addSq ⟨beta.length, fun r c =>
      (if c = r + 1 then alpha.getD r 0 else 0) + (if r = c + 1 then beta.tail.getD c 0 else 0)⟩ (diag0 rho)
      = .ok ⟨beta.length, fun r c => ((if c = r + 1 then alpha.getD r 0 else 0) +
          (if r = c + 1 then beta.tail.getD c 0 else 0)) + (if r = c then rho.getD r 0 else 0)⟩ := by
    unfold addSq
    rw [if_pos (show beta.length = (diag0 rho).n from hr.symm)]
    rfl
  unfold leapFrog
  rw [h]
  dsimp only
  rw [h2]
  exact finish_col beta hb _ f

/-- sum with a lower-diagonal coefficient -/
theorem sum_low (N : ℕ) (v : ℕ → ℝ) (x : ℕ → ℝ) (r : ℕ) (hr : r < N) :
    ∑ c ∈ range N, (if r = c + 1 then v c else 0) * x c = if r = 0 then 0 else v (r - 1) * x (r - 1) := by
  by_cases h : r = 0
  · subst h
    rw [if_pos rfl]
    exact Finset.sum_eq_zero fun c _ => by rw [if_neg (by omega), zero_mul]
  · rw [if_neg h, Finset.sum_eq_single (r - 1)]
    · rw [if_pos (by omega)]
    · intro b _ hb; rw [if_neg (by omega), zero_mul]
    · intro hh; exact absurd (mem_range.mpr (by omega)) hh

/-- sum with an upper-diagonal coefficient -/
theorem sum_up (N : ℕ) (v : ℕ → ℝ) (x : ℕ → ℝ) (r : ℕ) :
    ∑ c ∈ range N, (if c = r + 1 then v r else 0) * x c = if r + 1 < N then v r * x (r + 1) else 0 := by
  by_cases h : r + 1 < N
  · rw [if_pos h, Finset.sum_eq_single (r + 1)]
    · rw [if_pos rfl]
    · intro b _ hb; rw [if_neg hb, zero_mul]
    · intro hh; exact absurd (mem_range.mpr h) hh
  · rw [if_neg h]
    exact Finset.sum_eq_zero fun c hc => by
      rw [if_neg (by have := mem_range.mp hc; omega), zero_mul]

/-- sum with a diagonal coefficient -/
theorem sum_diag (N : ℕ) (v : ℕ → ℝ) (x : ℕ → ℝ) (r : ℕ) (hr : r < N) :
    ∑ c ∈ range N, (if r = c then v r else 0) * x c = v r * x r := by
  rw [Finset.sum_eq_single r]
  · rw [if_pos rfl]
  · intro b _ hb; rw [if_neg (fun h => hb h.symm), zero_mul]
  · intro hh; exact absurd (mem_range.mpr hr) hh

end Cbadc.Analog
