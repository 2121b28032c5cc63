import Verif.Lemmas.NuvMain
import Verif.Lemmas.FilterExample

/-! # A concrete system with NUV estimators -/

namespace Cbadc.Nuv

open Matrix Set Cbadc.Analog Cbadc.Control Cbadc.Estimator Cbadc.Streams Cbadc.Filter Cbadc.Filter.Spec Cbadc.Nuv.Spec

/-- Coefficients for the integrator of `Verif.Lemmas.FilterExample`. -/
noncomputable abbrev exPre (covU : ℝ) (os : ℕ) : Pre (exSys 0).N 1 :=
  ⟨1, of fun _ _ => -(1 / (os : ℝ)), of fun _ _ => covU ^ 2 * (1 / (os : ℝ))⟩

theorem ex_computed (covU : ℝ) (os : ℕ) (hos : 0 < os) :
    Computed (exSys 0) (fun _ _ => -1) (exDC 0 (.step 0 1)) covU (sampleTime (exDC 0 (.step 0 1)).T none os) (exPre covU os) := by
  have hT : sampleTime (exDC 0 (.step 0 1)).T none os = 1 / (os : ℝ) := rfl
  have h1 : (1 : ℝ) ≤ os := by exact_mod_cast hos
  have hle : 1 / (os : ℝ) ≤ 1 := by rw [div_le_one (by linarith)]; exact h1
  have hA : toM (exSys 0).N (exSys 0).N (exSys 0).A = 0 := ex_A
  rw [hT]
  refine ⟨?_, fun m => ⟨fun t _ => -t, ?_, ?_, fun n => ?_⟩, fun i j => ?_⟩
  · rw [hA, smul_zero, NormedSpace.exp_zero]
  · refine ⟨(continuous_pi fun _ => continuous_neg).continuousOn, fun t ht => ?_⟩
    rw [hA, zero_mulVec, zero_add]
    have e : toM (exSys 0).N 1 (fun _ _ => (-1 : ℝ)) *ᵥ impulseResponse (exDC 0 (.step 0 1)) m t = fun _ => -1 := by
      have ht0 : 0 ≤ t := ht.1
      have ht1 : t ≤ 1 := ht.2.le.trans hle
      funext i
      fin_cases m
      show ∑ j : Fin 1, (-1 : ℝ) * impulseResponse (exDC 0 (.step 0 1)) 0 t j = -1
      simp [impulseResponse, Dac.ir, Dac.eval, ht0, ht1]
    rw [e]
    exact (hasDerivAt_pi.2 fun _ => hasDerivAt_neg t).hasDerivWithinAt
  · funext; exact neg_zero
  · rfl
  · show covU ^ 2 * (1 / (os : ℝ)) = _
    have e : (fun t : ℝ => (NormedSpace.exp ((1 / (os : ℝ) - t) • toM (exSys 0).N (exSys 0).N (exSys 0).A) *
        ((toM (exSys 0).N (exSys 0).L (exSys 0).B * (covU • (toM (exSys 0).N (exSys 0).L (exSys 0).B)ᵀ)) *
          NormedSpace.exp (((1 / (os : ℝ) - t) • toM (exSys 0).N (exSys 0).N (exSys 0).A)ᵀ))) i j) = fun _ => covU := by
      funext t
      rw [hA, smul_zero, transpose_zero, NormedSpace.exp_zero, Matrix.one_mul, Matrix.mul_one]
      fin_cases i; fin_cases j
      simp [Matrix.mul_apply, toM]
    rw [e, intervalIntegral.integral_const, sub_zero, smul_eq_mul]
    ring

/-- An estimator for it, with windows of two estimates and two decisions of look-ahead. -/
noncomputable abbrev exEst (covU : ℝ) (K1 K2 iters os : ℕ) : Est (exSys 0).N (exSys 0).Nt 1 (exSys 0).L :=
  ⟨exPre covU os, toM 1 1 fun _ _ => 1, toM 1 1 fun _ _ => 1, covU, 1, 1, K1, K2, iters, os⟩

theorem ex_new (covU : ℝ) (K1 K2 iters os : ℕ) (hK1 : 0 < K1) (hos : 0 < os) :
    Est.new (exSys 0) (exPre covU os) covU 1 1 K1 K2 iters os = .ok (exEst covU K1 K2 iters os) := by
  unfold Est.new
  rw [if_neg (by omega), if_neg (by omega), if_neg (by omega)]
  rfl

theorem ex_wave (os : ℕ) (hos : 0 < os) : ∀ m, ∀ i < os, ∀ t ∈ Ico 0 ((exDC 0 (.step 0 1)).T / (os : ℝ)),
    ((exDC 0 (.step 0 1)).ir m).f (i * ((exDC 0 (.step 0 1)).T / (os : ℝ)) + t) = ((exDC 0 (.step 0 1)).ir m).f t := by
  intro m i hi t ht
  have hos' : (0 : ℝ) < os := by exact_mod_cast hos
  have ht0 : 0 ≤ t := ht.1
  have hi0 : 0 ≤ (i : ℝ) * (1 / (os : ℝ)) := by positivity
  have h0 : 0 ≤ (i : ℝ) * (1 / (os : ℝ)) + t := by linarith
  have h0' : 0 ≤ (i : ℝ) * (os : ℝ)⁻¹ + t := by simpa using h0
  simp [Dac.ir, Dac.eval, ht0, h0']

/-! ### The least cost of a small window -/

/-- Only the variances of the sample times in the window matter. -/
theorem Spec.Window.Smoothed.congr {N P L : ℕ} {p : Window N P L} {s1 s2 s1' s2' : ℕ → Fin P → ℝ} {u : ℕ → ℝ → Fin L → ℝ}
    {x : ℕ → ℝ → Fin N → ℝ} {J : ℕ → ℝ → ℝ} (h : p.Smoothed s1 s2 u x J) (h1 : ∀ k < p.K, s1 k = s1' k)
    (h2 : ∀ k < p.K, s2 k = s2' k) : p.Smoothed s1' s2' u x J := by
  have e : ∀ x, p.spread s1 s2 x = p.spread s1' s2' x := fun x =>
    Finset.sum_congr rfl fun k hk => by rw [h1 k (Finset.mem_range.1 hk), h2 k (Finset.mem_range.1 hk)]
  refine ⟨h.explained, h.continuous, fun u' x' J' h' => ?_, fun u' x' J' h' hle => ?_⟩
  · rw [← e, ← e]
    exact h.least u' x' J' h'
  · rw [← e, ← e] at hle
    exact h.unique u' x' J' h' hle

theorem gram_zero {N L : ℕ} (B : Matrix (Fin N) (Fin L) ℝ) : gram 0 B 1 = B * Bᵀ := by
  ext i j
  show ∫ t in (0 : ℝ)..1, _ = _
  simp only [smul_zero, NormedSpace.exp_zero, transpose_one, Matrix.one_mul, Matrix.mul_one, intervalIntegral.integral_const,
    sub_zero, one_smul]

/-- The window of two sample times for the integrator, when the decision is one. -/
theorem ex_value (w : ℝ) (hw : 0 < w) {u : ℕ → ℝ → Fin (exSys 0).L → ℝ} {x : ℕ → ℝ → Fin (exSys 0).N → ℝ} {J : ℕ → ℝ → ℝ}
    {s1 s2 : ℕ → Fin (exSys 0).Nt → ℝ} (h1 : ∀ k < 2, s1 k = fun _ => 1) (h2 : ∀ k < 2, s2 k = fun _ => 1)
    (h : (problem (toM (exSys 0).N (exSys 0).N (exSys 0).A) (toM (exSys 0).N (exSys 0).L (exSys 0).B)
      (toM (exSys 0).Nt (exSys 0).N (exSys 0).CT) (toM (exSys 0).N 1 fun _ _ => -1) (fun m t => ((exDC 0 (.step 0 1)).ir m).f t)
      (fun _ _ => 1) ((exDC 0 (.step 0 1)).T / (1 : ℕ)) 1 0 2 w 1 0 ((10 : ℝ) ^ 12 • 1)).Smoothed s1 s2 u x J) :
    u 0 1 0 = 2 * w * (1 + 2 * 10 ^ 12) / (2 * 10 ^ 12 + (1 + 2 * w) * (1 + 2 * 10 ^ 12)) := by
  have hT : (exDC 0 (.step 0 1)).T / ((1 : ℕ) : ℝ) = 1 := by norm_num
  rw [hT, show toM (exSys 0).N (exSys 0).N (exSys 0).A = 0 from ex_A] at h
  have hd : (2 * 10 ^ 12 + (1 + 2 * w) * (1 + 2 * 10 ^ 12) : ℝ) ≠ 0 := by positivity
  obtain ⟨x0, hx0⟩ : ∃ x0 : ℝ, x0 = 2 * 10 ^ 12 / (2 * 10 ^ 12 + (1 + 2 * w) * (1 + 2 * 10 ^ 12)) := ⟨_, rfl⟩
  obtain ⟨x1, hx1⟩ : ∃ x1 : ℝ, x1 = -(1 + 2 * 10 ^ 12) / (2 * 10 ^ 12 + (1 + 2 * w) * (1 + 2 * 10 ^ 12)) := ⟨_, rfl⟩
  have hV : (((10 : ℝ) ^ 12 • 1 : Matrix (Fin (exSys 0).N) (Fin (exSys 0).N) ℝ)).PosDef := PosDef.one.smul (by positivity)
  have := smoothed_value (n := 1) (p := problem 0 (toM (exSys 0).N (exSys 0).L (exSys 0).B)
      (toM (exSys 0).Nt (exSys 0).N (exSys 0).CT) (toM (exSys 0).N 1 fun _ _ => -1) (fun m t => ((exDC 0 (.step 0 1)).ir m).f t)
      (fun _ _ => 1) 1 1 0 2 w 1 0 ((10 : ℝ) ^ 12 • 1)) rfl hw one_pos hV (s1 := fun _ _ => 1) (s2 := fun _ _ => 1)
    (fun _ _ => one_pos) (fun _ _ => one_pos) (fun k _ => if k = 0 then x0 else x1)
    (fun k _ => if k = 0 then 2 * x0 + 2 * x1 else 2 * x1) (fun _ t _ => -t) ?_ ?_ ?_ ?_ ?_ ?_ (h.congr h1 h2) 0 (by norm_num)
  · have e := congrFun this 0
    have e1 : u 0 1 0 = -(w * (2 * x1)) := by
      refine e.trans ?_
      simp [problem, Matrix.mulVec, dotProduct, toM]
    rw [e1, hx1]
    field_simp
  · intro k hk
    refine ⟨(continuous_pi fun _ => continuous_neg).continuousOn, fun t ht => ?_⟩
    have ht0 : 0 ≤ t := ht.1
    have e : (problem 0 (toM (exSys 0).N (exSys 0).L (exSys 0).B)
      (toM (exSys 0).Nt (exSys 0).N (exSys 0).CT) (toM (exSys 0).N 1 fun _ _ => -1) (fun m t => ((exDC 0 (.step 0 1)).ir m).f t)
      (fun _ _ => 1) 1 1 0 2 w 1 0 ((10 : ℝ) ^ 12 • 1)).q k t = fun _ => -1 := by
      funext i
      simp [problem, Matrix.mulVec, dotProduct, toM, Dac.ir, Dac.eval, ht0, Nat.mod_one]
      norm_num
    rw [e]
    show HasDerivWithinAt _ (0 *ᵥ _ + _) _ _
    rw [zero_mulVec, zero_add]
    exact (hasDerivAt_pi.2 fun _ => hasDerivAt_neg t).hasDerivWithinAt
  · intro k hk
    funext i
    exact neg_zero
  · funext i
    show x0 - 0 = -(((10 : ℝ) ^ 12 • (1 : Matrix (Fin 1) (Fin 1) ℝ)) *ᵥ fun _ => 2 * x0 + 2 * x1) i
    rw [smul_mulVec, one_mulVec, Pi.smul_apply, smul_eq_mul, hx0, hx1]
    field_simp
    ring
  · funext i
    simp [problem, slope, Matrix.mulVec, dotProduct, toM]
    ring
  · intro k hk
    obtain rfl : k = 0 := by omega
    funext i
    simp [problem, slope, Matrix.mulVec, dotProduct, toM]
    ring
  · intro k hk
    obtain rfl : k = 0 := by omega
    show (fun _ => x1) = NormedSpace.exp ((1 : ℝ) • (0 : Matrix (Fin 1) (Fin 1) ℝ)) *ᵥ (fun _ => x0) + (fun _ => -1) -
      (w • gram 0 (toM 1 1 fun _ _ => 1) 1) *ᵥ fun _ => 2 * x1
    rw [gram_zero, smul_zero, NormedSpace.exp_zero, one_mulVec]
    funext i
    simp [Matrix.mulVec, dotProduct, toM, Matrix.mul_apply]
    rw [hx0, hx1]
    field_simp
    ring

/-! ### An output matrix that is not symmetric -/

/-- Two integrators; the first output is the second state, and the second output is zero. -/
noncomputable abbrev skSys : Sys ℝ where
  N := 2
  L := 1
  M := 1
  Mt := 1
  Nt := 2
  A := fun _ _ => 0
  B := fun i _ => if i = 1 then 1 else 0
  CT := fun i j => if i = 0 ∧ j = 1 then 1 else 0
  Gamma := some fun i _ => if i = 1 then -1 else 0
  GammaT := some fun _ _ => 1
  D := fun _ _ => 0
  Bt := fun _ _ => 0
  At := fun _ _ => 0

/-- The matrix `Gamma` of `skSys`. -/
noncomputable abbrev skG : ℕ → ℕ → ℝ := fun i _ => if i = 1 then -1 else 0

/-- Coefficients for `skSys`. -/
noncomputable abbrev skPre : Pre skSys.N 1 :=
  ⟨1, of fun i _ => if i = 1 then -1 else 0, of fun i j => if i = 1 ∧ j = 1 then 1 else 0⟩

theorem sk_A : toM skSys.N skSys.N skSys.A = 0 := by ext; rfl

theorem sk_computed : Computed skSys skG (exDC 0 (.step 0 1)) 1 (sampleTime (exDC 0 (.step 0 1)).T none 1) skPre := by
  have hT : sampleTime (exDC 0 (.step 0 1)).T none 1 = 1 := by simp [sampleTime]
  rw [hT]
  refine ⟨?_, fun m => ⟨fun t i => if i = 1 then -t else 0, ?_, ?_, fun n => ?_⟩, fun i j => ?_⟩
  · rw [sk_A, smul_zero, NormedSpace.exp_zero]
  · refine ⟨(continuous_pi fun i => ?_).continuousOn, fun t ht => ?_⟩
    · by_cases h : i = 1
      · simp only [if_pos h]; exact continuous_neg
      · simp only [if_neg h]; exact continuous_const
    rw [sk_A, zero_mulVec, zero_add]
    have e : toM skSys.N 1 skG *ᵥ impulseResponse (exDC 0 (.step 0 1)) m t = fun i => if i = 1 then -1 else 0 := by
      have ht0 : 0 ≤ t := ht.1
      have ht1 : t ≤ 1 := ht.2.le
      funext i
      fin_cases m
      fin_cases i <;> simp [Matrix.mulVec, dotProduct, toM, impulseResponse, Dac.ir, Dac.eval, ht0, ht1]
    rw [e]
    refine (hasDerivAt_pi.2 fun i => ?_).hasDerivWithinAt
    by_cases h : i = 1
    · simp only [if_pos h]; exact hasDerivAt_neg t
    · simp only [if_neg h]; exact hasDerivAt_const t _
  · funext i
    by_cases h : i = 1
    · simp [h]
    · simp [h]
  · fin_cases n <;> simp
  · have e : (fun t : ℝ => (NormedSpace.exp ((1 - t) • toM skSys.N skSys.N skSys.A) *
        ((toM skSys.N skSys.L skSys.B * ((1 : ℝ) • (toM skSys.N skSys.L skSys.B)ᵀ)) *
          NormedSpace.exp (((1 - t) • toM skSys.N skSys.N skSys.A)ᵀ))) i j) = fun _ => if i = 1 ∧ j = 1 then 1 else 0 := by
      funext t
      rw [sk_A, smul_zero, transpose_zero, NormedSpace.exp_zero, Matrix.one_mul, Matrix.mul_one]
      fin_cases i <;> fin_cases j <;> simp [Matrix.mul_apply, toM]
    rw [e, intervalIntegral.integral_const, sub_zero, one_smul, one_mul]
    rfl

/-- An estimator for it. -/
noncomputable abbrev skEst : Est skSys.N skSys.Nt 1 skSys.L :=
  ⟨skPre, toM 2 1 fun i _ => if i = 1 then 1 else 0, toM 2 2 fun i j => if i = 0 ∧ j = 1 then 1 else 0, 1, 1, 1, 2, 0, 0, 1⟩

theorem sk_new : Est.new skSys skPre 1 1 1 2 0 0 1 = .ok skEst := by
  unfold Est.new
  rw [if_neg (by omega), if_neg (by omega), if_neg (by omega)]
  rfl

/-- The code takes the transposed output matrix for the innovation, which is zero here. -/
theorem sk_out (p : Prior skSys.N skSys.Nt) (w : ℕ → Fin 1 → ℝ) : out skEst p w 1 = 0 := by
  have hB : ∀ z : Fin 2 → ℝ, skEst.Bᵀ *ᵥ (skEst.CTᵀ *ᵥ z) = fun _ => z 0 := by
    intro z
    funext i
    simp [Matrix.mulVec, dotProduct, toM, Fin.sum_univ_two]
  have hW : wBack (fun _ : Fin 2 => (1 : ℝ)) (fun _ => 1) = Matrix.diagonal fun _ => 2 := by
    rw [wBack, diagonal_add]
    norm_num
  have hm : wmBack 1 (fun _ : Fin 2 => (1 : ℝ)) (fun _ => 1) = 0 := by
    funext i
    simp [wmBack]
  have hG : ∀ V : Matrix (Fin 2) (Fin 2) ℝ, ∃ v : Fin 2 → ℝ, gain skEst.CT V (Matrix.diagonal fun _ => 2)⁻¹ = Matrix.diagonal v := by
    intro V
    refine ⟨Ring.inverse fun i => Ring.inverse (fun _ : Fin 2 => (2 : ℝ)) i + if i = 0 then V 1 1 else 0, ?_⟩
    rw [gain, inv_diagonal, ← inv_diagonal (fun i => Ring.inverse (fun _ : Fin 2 => (2 : ℝ)) i + if i = 0 then V 1 1 else 0)]
    congr 1
    rw [← diagonal_add]
    congr 1
    ext i j
    fin_cases i <;> fin_cases j <;> simp [Matrix.mul_apply, toM, Fin.sum_univ_two]
  have hx : (solved skEst 0 p w).xi 1 = skEst.CTᵀ *ᵥ (gain skEst.CT (skEst.forward (skEst.stats (base p w)) 1).2
      (wBack (fun _ : Fin 2 => (1 : ℝ)) (fun _ => 1))⁻¹ *ᵥ (mulT rfl skEst.CT (skEst.forward (skEst.stats (base p w)) 1).1 -
        (wBack (fun _ : Fin 2 => (1 : ℝ)) (fun _ => 1))⁻¹ *ᵥ wmBack 1 (fun _ : Fin 2 => (1 : ℝ)) (fun _ => 1))) := by
    show (factor _ _ _)ᵀ *ᵥ 0 + _ = _
    rw [mulVec_zero, zero_add]
    rfl
  rw [hW, hm, mulVec_zero, sub_zero] at hx
  obtain ⟨v, hv⟩ := hG (skEst.forward (skEst.stats (base p w)) 1).2
  rw [hv] at hx
  show -((1 : ℝ) • (skEst.Bᵀ *ᵥ (solved skEst 0 p w).xi 1)) = 0
  rw [hx, hB, one_smul]
  funext i
  show -((Matrix.diagonal v *ᵥ _) 0) = 0
  rw [mulVec_diagonal]
  simp [mulT, toM]

/-- The window of two sample times for `skSys`, when the decision is one. -/
theorem sk_value : ∃ u x J, (problem (toM skSys.N skSys.N skSys.A) (toM skSys.N skSys.L skSys.B)
      (toM skSys.Nt skSys.N skSys.CT) (toM skSys.N 1 skG) (fun m t => ((exDC 0 (.step 0 1)).ir m).f t)
      (fun _ _ => 1) ((exDC 0 (.step 0 1)).T / (1 : ℕ)) 1 0 2 1 1 0 ((10 : ℝ) ^ 12 • 1)).Smoothed (fun _ _ => 1) (fun _ _ => 1) u x J ∧
    u 0 1 0 ≠ 0 := by
  have hT : (exDC 0 (.step 0 1)).T / ((1 : ℕ) : ℝ) = 1 := by norm_num
  rw [hT, sk_A]
  obtain ⟨x0, hx0⟩ : ∃ x0 : ℝ, x0 = 2 * 10 ^ 12 / (3 + 8 * 10 ^ 12) := ⟨_, rfl⟩
  obtain ⟨x1, hx1⟩ : ∃ x1 : ℝ, x1 = -(1 + 2 * 10 ^ 12) / (3 + 8 * 10 ^ 12) := ⟨_, rfl⟩
  have hV : (((10 : ℝ) ^ 12 • 1 : Matrix (Fin skSys.N) (Fin skSys.N) ℝ)).PosDef := PosDef.one.smul (by positivity)
  obtain ⟨u, x, J, ⟨h, -⟩, -, hu⟩ := smooth_optimal (n := 1) (p := problem 0 (toM skSys.N skSys.L skSys.B)
      (toM skSys.Nt skSys.N skSys.CT) (toM skSys.N 1 skG) (fun m t => ((exDC 0 (.step 0 1)).ir m).f t)
      (fun _ _ => 1) 1 1 0 2 1 1 0 ((10 : ℝ) ^ 12 • 1)) rfl one_pos zero_le_one hV (s1 := fun _ _ => 1) (s2 := fun _ _ => 1)
    (fun _ _ => one_pos) (fun _ _ => one_pos) (fun k i => if i = 1 then if k = 0 then x0 else x1 else 0)
    (fun k i => if i = 1 then if k = 0 then 2 * x0 + 2 * x1 else 2 * x1 else 0) (fun _ t i => if i = 1 then -t else 0)
    (by
      intro k hk
      refine ⟨(continuous_pi fun i => ?_).continuousOn, fun t ht => ?_⟩
      · by_cases h : i = 1
        · simp only [if_pos h]; exact continuous_neg
        · simp only [if_neg h]; exact continuous_const
      have ht0 : 0 ≤ t := ht.1
      have e : (problem 0 (toM skSys.N skSys.L skSys.B)
        (toM skSys.Nt skSys.N skSys.CT) (toM skSys.N 1 skG) (fun m t => ((exDC 0 (.step 0 1)).ir m).f t)
        (fun _ _ => 1) 1 1 0 2 1 1 0 ((10 : ℝ) ^ 12 • 1)).q k t = (fun i => if i = 1 then -1 else 0) := by
        funext i
        fin_cases i
        · simp [problem, Matrix.mulVec, dotProduct, toM]
        · simp [problem, Matrix.mulVec, dotProduct, toM, Dac.ir, Dac.eval, ht0, Nat.mod_one]
          norm_num
      rw [e]
      show HasDerivWithinAt _ (0 *ᵥ _ + _) _ _
      rw [zero_mulVec, zero_add]
      refine (hasDerivAt_pi.2 fun i => ?_).hasDerivWithinAt
      by_cases h : i = 1
      · simp only [if_pos h]; exact hasDerivAt_neg t
      · simp only [if_neg h]; exact hasDerivAt_const t _)
    (by
      intro k hk
      funext i
      fin_cases i <;> simp)
    (by
      funext i
      show (if i = 1 then x0 else 0) - 0 = -(((10 : ℝ) ^ 12 • (1 : Matrix (Fin 2) (Fin 2) ℝ)) *ᵥ fun i =>
        if i = 1 then 2 * x0 + 2 * x1 else 0) i
      rw [smul_mulVec, one_mulVec, Pi.smul_apply, smul_eq_mul]
      fin_cases i
      · simp
      · simp only [Fin.mk_one, if_pos, hx0, hx1]
        norm_num)
    (by
      funext i
      fin_cases i
      · simp [problem, slope, Matrix.mulVec, dotProduct, toM]
      · simp [problem, slope, Matrix.mulVec, dotProduct, toM]
        ring)
    (by
      intro k hk
      obtain rfl : k = 0 := by omega
      funext i
      fin_cases i
      · simp [problem, slope, Matrix.mulVec, dotProduct, toM]
      · simp [problem, slope, Matrix.mulVec, dotProduct, toM]
        ring)
    (by
      intro k hk
      obtain rfl : k = 0 := by omega
      show (fun i => if i = 1 then x1 else 0) = NormedSpace.exp ((1 : ℝ) • (0 : Matrix (Fin 2) (Fin 2) ℝ)) *ᵥ
        (fun i => if i = 1 then x0 else 0) + (fun i => if i = 1 then -1 else 0) -
        ((1 : ℝ) • gram 0 (toM skSys.N skSys.L skSys.B) 1) *ᵥ fun i => if i = 1 then 2 * x1 else 0
      rw [gram_zero, smul_zero, NormedSpace.exp_zero, one_mulVec]
      funext i
      fin_cases i
      · simp [Matrix.mulVec, dotProduct, toM, Matrix.mul_apply]
      · simp [Matrix.mulVec, dotProduct, toM, Matrix.mul_apply]
        rw [hx0, hx1]
        norm_num)
  refine ⟨u, x, J, h, ?_⟩
  have e : u 0 1 0 = -(2 * x1) := by
    refine (congrFun (hu 0 (by norm_num)) 0).trans ?_
    simp [problem, Matrix.mulVec, dotProduct, toM]
  rw [e, hx1]
  norm_num

end Cbadc.Nuv
