import Mathlib.Tactic.Linarith
import Mathlib.Tactic.Positivity
import Mathlib.Analysis.SpecificLimits.Basic
import Verif.Model.Care
import Verif.Spec.FilterCoefficients

/-! # C138: the choice of the Riccati solver -/

namespace Cbadc.Filter

open Matrix Spec

variable {N P : ℕ} {A : Matrix (Fin N) (Fin N) ℝ} {B : Matrix (Fin N) (Fin P) ℝ} {Q : Matrix (Fin N) (Fin N) ℝ}
  {R : Matrix (Fin P) (Fin P) ℝ} {V : Matrix (Fin N) (Fin N) ℝ} {rounds : ℕ}
  {analytical scipy guess : Except CareExc (Matrix (Fin N) (Fin N) ℝ)}

theorem symmetrised_symm (V : Matrix (Fin N) (Fin N) ℝ) : (symmetrised V)ᵀ = symmetrised V := by
  rw [symmetrised, transpose_smul, transpose_add, transpose_transpose, add_comm]

theorem symmetrised_eq (h : Vᵀ = V) : symmetrised V = V := by
  rw [symmetrised, h, ← two_smul ℝ V, smul_smul]
  norm_num

/-! ### The integrator with `A = 0`, `B = Q = R = 1`: the equation is `1 - V² = 0` -/

/-- A matrix with one entry. -/
def one1 (v : ℝ) : Matrix (Fin 1) (Fin 1) ℝ := fun _ _ => v

theorem one1_step (tau v : ℝ) : bruteStep (one1 0) (one1 1) (one1 1) (one1 1) tau (one1 v) = one1 (v + tau * (1 - v ^ 2)) := by
  have h1 : one1 1 = 1 := by
    ext i j
    rw [Subsingleton.elim i j, one_apply_eq]
    rfl
  have h0 : one1 0 = 0 := rfl
  ext i j
  rw [bruteStep, bruteTerm, h1, h0]
  have hij : (1 : Matrix (Fin 1) (Fin 1) ℝ) i j = 1 := by rw [Subsingleton.elim i j, one_apply_eq]
  simp [Matrix.mul_apply, one1, hij]
  ring

theorem one1_care : IsStabilising (one1 0) (one1 1) (one1 1) (one1 1) (one1 1) := by
  have h1 : one1 1 = 1 := by
    ext i j
    rw [Subsingleton.elim i j, one_apply_eq]
    rfl
  have h0 : one1 0 = 0 := rfl
  rw [h1, h0]
  refine ⟨⟨by simp, by simp⟩, ?_⟩
  intro μ x hx h
  have h2 := congrFun h 0
  have h3 : x 0 ≠ 0 := fun h4 => hx (funext fun i => by rw [Subsingleton.elim i 0, h4]; rfl)
  simp [mulVec, dotProduct] at h2
  have h4 : μ = -1 := by
    have : (μ + 1) * x 0 = 0 := by linear_combination -h2
    linear_combination (mul_eq_zero.1 this).resolve_right h3
  rw [h4]
  norm_num

/-- **C138** Whichever solver is used, the result of `care` is symmetric. -/
theorem C138_symmetric (h : care A B Q R rounds analytical scipy guess = .ok V) : Vᵀ = V := by
  unfold care at h
  match analytical with
  | .ok W =>
    simp only [Except.ok.injEq] at h
    rw [← h, symmetrised_symm]
  | .error e =>
    dsimp only at h
    by_cases c : e = .precisionExhausted ∨ e = .typeError
    · rw [if_pos c] at h
      match scipy with
      | .ok W =>
        simp only [Except.ok.injEq] at h
        rw [← h, symmetrised_symm]
      | .error e' =>
        dsimp only at h
        by_cases c' : e' = .linAlgError
        · rw [if_pos c'] at h
          match hb : bruteForceCare A B Q R rounds guess with
          | .ok W =>
            rw [hb] at h
            simp only [Except.ok.injEq] at h
            rw [← h, symmetrised_symm]
          | .error e'' =>
            rw [hb] at h
            cases h
        · rw [if_neg c'] at h
          cases h
    · rw [if_neg c] at h
      cases h

theorem bruteStep_fixed (h : IsCare A B Q R V) (tau : ℝ) : bruteStep A B Q R tau V = V := by
  have h0 : bruteTerm A B Q R V = 0 := by
    have := h.eq
    unfold bruteTerm
    rw [h.symm, ← this]
    simp only [Matrix.mul_assoc]
    abel
  unfold bruteStep
  rw [h0]
  dsimp only
  rw [smul_zero, add_zero, h.symm, ← two_smul ℝ V, smul_smul]
  norm_num

theorem bruteLoop_fixed (h : IsCare A B Q R V) {rtol atol shrink : ℝ} (hr : 0 ≤ rtol) (ha : 0 ≤ atol) (n : ℕ) :
    ∀ W tau, bruteLoop A B Q R rtol atol shrink (n + 1) V W tau = .ok V := by
  intro W tau
  unfold bruteLoop
  by_cases c : AllClose rtol atol V W
  · rw [if_pos c]
  · rw [if_neg c, bruteStep_fixed h]
    have c' : AllClose rtol atol V V := fun i j => by
      rw [sub_self, abs_zero]
      positivity
    cases n <;> (unfold bruteLoop; rw [if_pos c'])

/-- **C138** (partial: the brute force solver is started from an exact solution): if what the solvers return are solutions of
the Riccati equation, then `care` returns a symmetric solution, unless a solver raises an exception that `care` does not
handle. -/
theorem C138_solves_partial (ha : ∀ V, analytical = .ok V → IsCare A B Q R V) (hs : ∀ V, scipy = .ok V → IsCare A B Q R V)
    (hg : ∃ V, guess = .ok V ∧ IsCare A B Q R V) (hr : 0 < rounds)
    (ea : ∀ e, analytical = .error e → e = .precisionExhausted ∨ e = .typeError)
    (es : ∀ e, scipy = .error e → e = .linAlgError) :
    ∃ V, care A B Q R rounds analytical scipy guess = .ok V ∧ IsCare A B Q R V := by
  unfold care
  match analytical with
  | .ok W => exact ⟨W, by dsimp only; rw [symmetrised_eq (ha W rfl).symm], ha W rfl⟩
  | .error e =>
    dsimp only
    rw [if_pos (ea e rfl)]
    match scipy with
    | .ok W => exact ⟨W, by dsimp only; rw [symmetrised_eq (hs W rfl).symm], hs W rfl⟩
    | .error e' =>
      dsimp only
      rw [if_pos (es e' rfl)]
      obtain ⟨W, rfl, hW⟩ := hg
      obtain ⟨n, rfl⟩ : ∃ n, rounds = n + 1 := ⟨rounds - 1, by omega⟩
      refine ⟨W, ?_, hW⟩
      unfold bruteForceCare
      dsimp only
      rw [bruteLoop_fixed hW (by positivity) (by positivity)]
      dsimp only
      rw [symmetrised_eq hW.symm]

/-- The hypotheses of `C138_solves_partial` and `C138_symmetric` hold when both other solvers fail. -/
example : ∃ V, care (one1 0) (one1 1) (one1 1) (one1 1) 1 (.error .typeError) (.error .linAlgError) (.ok (one1 1)) = .ok V ∧
    IsCare (one1 0) (one1 1) (one1 1) (one1 1) V :=
  C138_solves_partial (by simp) (by simp) ⟨_, rfl, one1_care.care⟩ Nat.one_pos (by simp) (by simp)

/-- **C138** Other exceptions reach the caller, whatever the remaining solvers could do; so do the exceptions of the last solver. -/
theorem C138_exceptions (e : CareExc) :
    (e ≠ .precisionExhausted → e ≠ .typeError → care A B Q R rounds (.error e) scipy guess = .error e) ∧
    (∀ e', e' = .precisionExhausted ∨ e' = .typeError → e ≠ .linAlgError →
      care A B Q R rounds (.error e') (.error e) guess = .error e) ∧
    (∀ e', e' = .precisionExhausted ∨ e' = .typeError → care A B Q R rounds (.error e') (.error .linAlgError) (.error e) = .error e) := by
  refine ⟨fun h1 h2 => ?_, fun e' h1 h2 => ?_, fun e' h1 => ?_⟩
  · unfold care
    dsimp only
    rw [if_neg (by tauto)]
  · unfold care
    dsimp only
    rw [if_pos h1, if_neg h2]
  · unfold care
    dsimp only
    rw [if_pos h1, if_pos rfl]
    rfl

/-- The error of the result is nearly that of the start. -/
private theorem one1_error (rtol atol : ℝ) (n : ℕ) : ∀ (v tau : ℝ) (U W : Matrix (Fin 1) (Fin 1) ℝ), 0 ≤ v → v ≤ 1 → 0 ≤ tau →
    tau ≤ 1 / 10 ^ 12 → bruteLoop (one1 0) (one1 1) (one1 1) (one1 1) rtol atol (1 - 1 / 100) n (one1 v) U tau = .ok W →
    ∃ w, W = one1 w ∧ 0 ≤ w ∧ (1 - v) * (1 - 200 * tau) ≤ 1 - w := by
  induction n with
  | zero =>
    intro v tau U W h0 h1 h2 h3 h
    unfold bruteLoop at h
    by_cases c : AllClose rtol atol (one1 v) U
    · rw [if_pos c, Except.ok.injEq] at h
      exact ⟨v, h.symm, h0, by nlinarith⟩
    · rw [if_neg c] at h
      cases h
  | succ n ih =>
    intro v tau U W h0 h1 h2 h3 h
    unfold bruteLoop at h
    by_cases c : AllClose rtol atol (one1 v) U
    · rw [if_pos c, Except.ok.injEq] at h
      exact ⟨v, h.symm, h0, by nlinarith⟩
    · rw [if_neg c, one1_step] at h
      have h4 : v + tau * (1 - v ^ 2) ≤ 1 := by
        have : 0 ≤ (1 - v) * (1 - tau * (1 + v)) := mul_nonneg (by linarith) (by nlinarith)
        nlinarith
      have h5 : 0 ≤ v + tau * (1 - v ^ 2) := by
        have : 0 ≤ tau * (1 - v ^ 2) := mul_nonneg h2 (by nlinarith)
        linarith
      obtain ⟨w, hw, hw0, hle⟩ := ih _ _ _ _ h5 h4 (by linarith) (by linarith) h
      refine ⟨w, hw, hw0, le_trans ?_ hle⟩
      have h6 : 1 - (v + tau * (1 - v ^ 2)) = (1 - v) * (1 - tau * (1 + v)) := by ring
      rw [h6, mul_assoc]
      refine mul_le_mul_of_nonneg_left ?_ (by linarith)
      have h7 : 1 - 2 * tau ≤ 1 - tau * (1 + v) := by nlinarith
      have h8 : 0 ≤ 1 - 200 * (tau * (1 - 1 / 100)) := by linarith
      nlinarith [mul_le_mul_of_nonneg_right h7 h8]

/-- The loop ends, as the steps shrink. -/
private theorem one1_ends {rtol atol : ℝ} (hr : 0 ≤ rtol) (k : ℕ) : ∀ (n : ℕ) (v tau : ℝ) (U : Matrix (Fin 1) (Fin 1) ℝ), k < n →
    0 ≤ v → v ≤ 1 → 0 ≤ tau → tau ≤ 1 / 10 ^ 12 → tau * (1 - 1 / 100) ^ k ≤ atol →
    ∃ W, bruteLoop (one1 0) (one1 1) (one1 1) (one1 1) rtol atol (1 - 1 / 100) n (one1 v) U tau = .ok W := by
  induction k with
  | zero =>
    intro n v tau U hn h0 h1 h2 h3 h4
    obtain ⟨m, rfl⟩ := Nat.exists_eq_succ_of_ne_zero hn.ne'
    unfold bruteLoop
    by_cases c : AllClose rtol atol (one1 v) U
    · exact ⟨_, if_pos c⟩
    · rw [if_neg c, one1_step]
      have c' : AllClose rtol atol (one1 (v + tau * (1 - v ^ 2))) (one1 v) := fun i j => by
        show |v + tau * (1 - v ^ 2) - v| ≤ atol + rtol * |v|
        have h5 : 0 ≤ tau * (1 - v ^ 2) := mul_nonneg h2 (by nlinarith)
        rw [add_sub_cancel_left, abs_of_nonneg h5]
        have h6 : 0 ≤ rtol * |v| := by positivity
        have h7 : tau * (1 - v ^ 2) ≤ tau := by nlinarith [mul_nonneg h2 (sq_nonneg v)]
        rw [pow_zero, mul_one] at h4
        linarith
      cases m <;> exact ⟨_, by unfold bruteLoop; rw [if_pos c']⟩
  | succ k ih =>
    intro n v tau U hn h0 h1 h2 h3 h4
    obtain ⟨m, rfl⟩ := Nat.exists_eq_succ_of_ne_zero (Nat.ne_of_gt (Nat.zero_lt_of_lt hn))
    unfold bruteLoop
    by_cases c : AllClose rtol atol (one1 v) U
    · exact ⟨_, if_pos c⟩
    · rw [if_neg c, one1_step]
      refine ih m _ _ _ (by omega) ?_ ?_ (by linarith) (by linarith) ?_
      · have : 0 ≤ tau * (1 - v ^ 2) := mul_nonneg h2 (by nlinarith)
        linarith
      · have : 0 ≤ (1 - v) * (1 - tau * (1 + v)) := mul_nonneg (by linarith) (by nlinarith)
        nlinarith
      · rw [mul_assoc, ← pow_succ']
        exact h4

/-- **C138** is false of the brute force solver: it does not improve its start.  For the integrator, whose solution is 1, it
ends from every start between 0 and 1 and returns a value whose error is at least the fraction `1 - 2e-10` of the error of
the start. -/
theorem C138_brute_false (v : ℝ) (h0 : 0 ≤ v) (h1 : v < 1) : IsStabilising (one1 0) (one1 1) (one1 1) (one1 1) (one1 1) ∧
    ∃ n, ∀ rounds, n ≤ rounds → ∃ w, care (one1 0) (one1 1) (one1 1) (one1 1) rounds (.error .precisionExhausted)
        (.error .linAlgError) (.ok (one1 v)) = .ok (one1 w) ∧
      (1 - v) * (1 - 2 / 10 ^ 10) ≤ 1 - w ∧ ¬IsCare (one1 0) (one1 1) (one1 1) (one1 1) (one1 w) := by
  refine ⟨one1_care, ?_⟩
  obtain ⟨k, hk⟩ := exists_pow_lt_of_lt_one (show (0 : ℝ) < 1 / 10 ^ 300 by positivity) (show (1 - 1 / 100 : ℝ) < 1 by norm_num)
  refine ⟨k + 1, fun rounds hr => ?_⟩
  have hp : (0 : ℝ) ≤ (1 - 1 / 100) ^ k := pow_nonneg (by norm_num) k
  have h12 : (0 : ℝ) ≤ 1 / 10 ^ 12 := by positivity
  have h13 : (1 / 10 ^ 12 : ℝ) ≤ 1 := by norm_num
  obtain ⟨W, hW⟩ := one1_ends (rtol := 1 / 10 ^ 200) (atol := 1 / 10 ^ 300) (by positivity) k rounds v (1 / 10 ^ 12)
    (Matrix.of fun _ _ => 10 ^ 300) (by omega) h0 h1.le h12 le_rfl ((mul_le_of_le_one_left hp h13).trans hk.le)
  obtain ⟨w, rfl, hw0, hw⟩ := one1_error _ _ rounds v (1 / 10 ^ 12) _ W h0 h1.le h12 le_rfl hW
  have hw' : (1 - v) * (1 - 2 / 10 ^ 10) ≤ 1 - w := by
    have : (1 - 200 * (1 / 10 ^ 12) : ℝ) = 1 - 2 / 10 ^ 10 := by norm_num
    rwa [this] at hw
  refine ⟨w, ?_, hw', fun h => ?_⟩
  · unfold care
    dsimp only
    rw [if_pos (Or.inl rfl), if_pos rfl]
    unfold bruteForceCare
    dsimp only
    rw [hW]
    dsimp only
    rw [symmetrised_eq]
    rfl
  · have h2 := congrFun (congrFun h.eq 0) 0
    have e1 : one1 1 = 1 := by
      ext i j
      rw [Subsingleton.elim i j, one_apply_eq]
      rfl
    rw [e1, show one1 0 = 0 from rfl] at h2
    simp [Matrix.mul_apply, one1] at h2
    have h3 : 0 < (1 - v) * (1 - 2 / 10 ^ 10) := mul_pos (by linarith) (by norm_num)
    have h4 : 0 < 1 - w := h3.trans_le hw'
    nlinarith [mul_pos h4 (show 0 < 1 + w by linarith)]

/-- From the start 1/2 the error 1/2 remains nearly. -/
example : ∃ n, ∀ rounds, n ≤ rounds → ∃ w, care (one1 0) (one1 1) (one1 1) (one1 1) rounds (.error .precisionExhausted)
    (.error .linAlgError) (.ok (one1 (1 / 2))) = .ok (one1 w) ∧ w < 501 / 1000 := by
  obtain ⟨-, n, hn⟩ := C138_brute_false (1 / 2) (by norm_num) (by norm_num)
  refine ⟨n, fun rounds h => ?_⟩
  obtain ⟨w, h1, h2, -⟩ := hn rounds h
  refine ⟨w, h1, ?_⟩
  norm_num at h2
  linarith

/-- The exception of a missing solver reaches the caller although SciPy would have solved the equation. -/
example : care (one1 0) (one1 1) (one1 1) (one1 1) 9 (.error .other) (.ok (one1 1)) (.ok (one1 1)) = .error .other :=
  (C138_exceptions .other).1 (by simp) (by simp)

end Cbadc.Filter
