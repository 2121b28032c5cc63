import Verif.Lemmas.Structures
import Verif.Spec.Structures
import Mathlib.Tactic.NormNum

/-! # C60, C61: integrator chains and leap-frog structures -/

namespace Cbadc.Analog
open Finset Spec

/-- network equations from the matrices -/
theorem network_of (N : ℕ) (A : ℕ → ℕ → ℝ) (b0 : ℝ) (f : ℕ → ℝ) (beta alpha rho : ℕ → ℝ) (hb : beta 0 = b0)
    (hA : ∀ (x : ℕ → ℝ) n, n < N → ∑ c ∈ range N, A n c * x c =
      rho n * x n + (if n = 0 then 0 else beta n * x (n - 1)) + alpha n * following N x n) :
    IsNetwork ⟨N, 1, N, N, N, A, fun i _ => if i = 0 then b0 else 0, fun i j => if i = j then 1 else 0,
        some (fun i j => if i = j then f i else 0), some (gammaTOf N fun i j => if i = j then f i else 0),
        fun _ _ => 0, fun _ _ => 0, fun _ _ => 0⟩ N beta alpha rho f where
  n := rfl
  l := rfl
  m := rfl
  mt := rfl
  nt := rfl
  deriv x u s := by
    obtain ⟨d, h1, -, h3⟩ := (C21_derivative_partial (K := ℝ)
      ⟨N, 1, N, N, N, A, fun i _ => if i = 0 then b0 else 0, fun i j => if i = j then 1 else 0,
        some (fun i j => if i = j then f i else 0), some (gammaTOf N fun i j => if i = j then f i else 0),
        fun _ _ => 0, fun _ _ => 0, fun _ _ => 0⟩ _ rfl ⟨N, x⟩ ⟨1, u⟩ ⟨N, s⟩).1 ⟨rfl, rfl, rfl⟩
    refine ⟨d, h1, fun n hn => ?_⟩
    rw [h3]
    dsimp only
    rw [hA x n hn, sum_diag N f s n hn, Finset.sum_range_one]
    unfold previous
    by_cases h : n = 0
    · subst h; simp only [if_pos]; rw [hb]; ring
    · simp only [if_neg h]; ring
  obs x u s := by
    obtain ⟨y, h1, h2, h3⟩ := (C27_observation_partial (K := ℝ)
      ⟨N, 1, N, N, N, A, fun i _ => if i = 0 then b0 else 0, fun i j => if i = j then 1 else 0,
        some (fun i j => if i = j then f i else 0), some (gammaTOf N fun i j => if i = j then f i else 0),
        fun _ _ => 0, fun _ _ => 0, fun _ _ => 0⟩ _ rfl ⟨N, x⟩ ⟨1, u⟩ ⟨N, s⟩ rfl rfl rfl).1
    refine ⟨y, h1, h2, fun n hn => ?_⟩
    have : y.v n = -(f n / |f n|) * x n := by
      rw [h3]
      dsimp only
      rw [Finset.sum_congr rfl (fun c _ => by rw [gammaT_diag N f n c hn]),
        sum_diag N (fun i => -(f i / |f i|)) x n hn]
      simp
    constructor
    · intro hf; rw [this, abs_of_pos hf, div_self hf.ne']; ring
    · intro hf; rw [this, abs_of_neg hf, div_neg, div_self hf.ne]; ring
  out x := by
    obtain ⟨y, h1, h2, h3⟩ := (C21_signal_observation (K := ℝ)
      ⟨N, 1, N, N, N, A, fun i _ => if i = 0 then b0 else 0, fun i j => if i = j then 1 else 0,
        some (fun i j => if i = j then f i else 0), some (gammaTOf N fun i j => if i = j then f i else 0),
        fun _ _ => 0, fun _ _ => 0, fun _ _ => 0⟩ ⟨N, x⟩).1 rfl
    refine ⟨y, h1, h2, fun n hn => ?_⟩
    rw [h3]
    dsimp only
    rw [sum_diag N (fun _ => 1) x n hn, one_mul]

theorem getD_tail (l : List ℝ) (n : ℕ) (h : n ≠ 0) : l.tail.getD (n - 1) 0 = l.getD n 0 := by
  obtain ⟨k, rfl⟩ : ∃ k, n = k + 1 := ⟨n - 1, by omega⟩
  cases l <;> simp

/-- C60: `ChainOfIntegrators(beta, rho, kappa)` with vectors of one common length `N ≥ 1` (`kappa` as a column)
is accepted and is the documented network: integrator `n` is driven by `beta_n` times its predecessor (the
input for the first), leaks by `rho_n`, and is controlled by `kappa_n`. -/
theorem C60_chain (beta rho : List ℝ) (kappa : ℕ → ℕ → ℝ) (hb : beta ≠ []) (hr : rho.length = beta.length) :
    ∃ g, chainOfIntegrators beta rho (.mat beta.length 1 kappa) = .ok g ∧
      IsNetwork g beta.length (fun n => beta.getD n 0) (fun _ => 0) (fun n => rho.getD n 0)
        (fun n => kappa n 0) := by
  refine ⟨_, chain_eq beta rho hb hr kappa, ?_⟩
  refine network_of _ _ _ _ _ _ _ rfl ?_
  intro x n hn
  simp only [add_mul, Finset.sum_add_distrib]
  rw [sum_diag _ (fun n => rho.getD n 0) x n hn, sum_low _ (fun c => beta.tail.getD c 0) x n hn]
  by_cases h : n = 0
  · simp [h]
  · rw [if_neg h, if_neg h, getD_tail beta n h]; ring

/-- C61: `LeapFrog(beta, alpha, rho, kappa)` likewise, with the additional coupling `alpha_n` from the
successor. -/
theorem C61_leap_frog (beta alpha rho : List ℝ) (kappa : ℕ → ℕ → ℝ) (hb : beta ≠ [])
    (ha : alpha.length + 1 = beta.length) (hr : rho.length = beta.length) :
    ∃ g, leapFrog beta alpha rho (.mat beta.length 1 kappa) = .ok g ∧
      IsNetwork g beta.length (fun n => beta.getD n 0) (fun n => alpha.getD n 0) (fun n => rho.getD n 0)
        (fun n => kappa n 0) := by
  refine ⟨_, leap_eq beta alpha rho hb ha hr kappa, ?_⟩
  refine network_of _ _ _ _ _ _ _ rfl ?_
  intro x n hn
  simp only [add_mul, Finset.sum_add_distrib]
  rw [sum_diag _ (fun n => rho.getD n 0) x n hn, sum_low _ (fun c => beta.tail.getD c 0) x n hn,
    sum_up _ (fun c => alpha.getD c 0) x n]
  unfold following
  by_cases h : n = 0
  · by_cases h' : n + 1 < beta.length <;> simp [h] <;> split_ifs <;> ring
  · rw [if_neg h, if_neg h, getD_tail beta n h]
    split_ifs <;> ring

/-- C60/C61: sizes that do not match are not detected by the guards of the constructors (which build an
exception without raising it); a single `rho` is silently added to every entry of the matrix `A` by
broadcasting. -/
theorem C60_size_mismatch_false :
    ∃ g : Sys ℝ, chainOfIntegrators [1, 1] [3] (.mat 2 1 fun _ _ => 1) = .ok g ∧ g.A 0 1 = 3 := by
  refine ⟨⟨2, 1, 2, 2, 2, fun r c => 3 + (if r = c + 1 then [(1 : ℝ)].getD c 0 else 0),
    fun i _ => if i = 0 then 1 else 0, fun i j => if i = j then 1 else 0,
    some (fun i j => if i = j then 1 else 0), some (gammaTOf 2 fun i j => if i = j then 1 else 0),
    fun _ _ => 0, fun _ _ => 0, fun _ _ => 0⟩, ?_, by norm_num⟩
  have h : addSq (diag0 [3]) (diagLow [(1 : ℝ), 1].tail) =
      .ok ⟨2, fun r c => 3 + (if r = c + 1 then [(1 : ℝ)].getD c 0 else 0)⟩ := rfl
  unfold chainOfIntegrators
  rw [h]
  exact finish_col [1, 1] (by simp) _ _

/-- a three-integrator chain meets the hypotheses of `C60_chain` and `C61_leap_frog` -/
example : ([6250, -6250, 6250] : List ℝ) ≠ [] ∧ ([0, -1, 0] : List ℝ).length = ([6250, -6250, 6250] : List ℝ).length ∧
    ([-3, -4] : List ℝ).length + 1 = ([6250, -6250, 6250] : List ℝ).length := by simp

end Cbadc.Analog
