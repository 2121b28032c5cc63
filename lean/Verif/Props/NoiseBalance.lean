import Mathlib.Analysis.SpecialFunctions.Pow.Real
import Mathlib.Analysis.SpecialFunctions.Log.Basic
import Mathlib.Analysis.Complex.ExponentialBounds
import Mathlib.Tactic.Linarith
import Mathlib.Tactic.FieldSimp
import Mathlib.Tactic.Positivity
import Verif.Model.NoiseBalance
import Verif.Props.TransferFunction

/-! # Properties of the noise and distortion budgets (C134, C135) -/

namespace Cbadc.Analog
open Matrix Spec
open scoped ComplexOrder

variable {L N : ℕ}

/-! ### C134 -/

/-- The frequencies of the grid lie in the band, in order, from one edge to the other. -/
theorem geomFreq_band {a b : ℝ} (ha : 0 < a) (hab : a ≤ b) : geomFreq a b 0 = a ∧ geomFreq a b 999 = b ∧
    (∀ k ≤ 999, a ≤ geomFreq a b k ∧ geomFreq a b k ≤ b) ∧
    ∀ k, geomFreq a b (k + 1) / geomFreq a b k = (b / a) ^ ((1 : ℝ) / 999) := by
  have hq : 1 ≤ b / a := by rw [le_div_iff₀ ha]; linarith
  have hb : 0 < b / a := by linarith
  refine ⟨?_, ?_, ?_, ?_⟩
  · simp [geomFreq]
  · unfold geomFreq
    rw [show ((999 : ℕ) : ℝ) / 999 = 1 by norm_num, Real.rpow_one]
    field_simp
  · intro k hk
    unfold geomFreq
    have hk' : ((k : ℕ) : ℝ) ≤ 999 := by exact_mod_cast hk
    constructor
    · have := Real.one_le_rpow hq (show (0 : ℝ) ≤ (k : ℝ) / 999 by positivity)
      nlinarith
    · have := Real.rpow_le_rpow_of_exponent_le hq (show (k : ℝ) / 999 ≤ 1 by
        rw [div_le_one (by norm_num)]; exact hk')
      rw [Real.rpow_one] at this
      calc a * (b / a) ^ ((k : ℝ) / 999) ≤ a * (b / a) := by gcongr
        _ = b := by field_simp
  · intro k
    unfold geomFreq
    rw [mul_div_mul_left _ _ ha.ne', ← Real.rpow_sub hb]
    congr 1
    push_cast
    ring

/-- C134, the gains: `max_transfer_function_peak()` returns for every input and state the largest squared magnitude over a
thousand frequencies in geometric progression from the lower to the upper edge of the band; a zero edge raises
`ValueError`. -/
theorem C134_peak (G : ℝ → Matrix (Fin L) (Fin N) ℂ) {a b : ℝ} (ha : 0 < a) (hab : a ≤ b) :
    ∃ (res : Fin L → Fin N → ℝ) (ω : ℕ → ℝ), peakPower G a b = .ok res ∧ ω 0 = a ∧ ω 999 = b ∧
      (∀ k ≤ 999, a ≤ ω k ∧ ω k ≤ b) ∧ (∀ k, ω (k + 1) / ω k = (b / a) ^ ((1 : ℝ) / 999)) ∧
      (∀ l n, ∀ k ≤ 999, ‖G (ω k) l n‖ ^ 2 ≤ res l n) ∧ (∀ l n, ∃ k ≤ 999, res l n = ‖G (ω k) l n‖ ^ 2) ∧
      ∀ l n m, (∀ w, a ≤ w → w ≤ b → ‖G w l n‖ ^ 2 ≤ m) → res l n ≤ m := by
  obtain ⟨h1, h2, h3, h4⟩ := geomFreq_band ha hab
  refine ⟨_, geomFreq a b, if_neg ?_, h1, h2, h3, h4, ?_, ?_, ?_⟩
  · rintro (h | h) <;> linarith
  · intro l n k hk
    exact le_ciSup (f := fun k : Fin 1000 => ‖G (geomFreq a b k) l n‖ ^ 2) (Set.finite_range _).bddAbove
      ⟨k, by omega⟩
  · intro l n
    obtain ⟨k, hk⟩ := exists_eq_ciSup_of_finite (f := fun k : Fin 1000 => ‖G (geomFreq a b k) l n‖ ^ 2)
    exact ⟨k, by omega, hk.symm⟩
  · intro l n m hm
    refine ciSup_le fun k => hm _ ?_ ?_
    · exact (h3 k (by omega)).1
    · exact (h3 k (by omega)).2

example : ∃ res, peakPower (fun ω => (!![(ω : ℂ), 2] : Matrix (Fin 1) (Fin 2) ℂ)) 1 3 = .ok res ∧ res 0 0 = 9 ∧ res 0 1 = 4 := by
  obtain ⟨res, ω, h1, h2, h3, h4, -, h5, h6, h7⟩ := C134_peak
    (fun ω => (!![(ω : ℂ), 2] : Matrix (Fin 1) (Fin 2) ℂ)) (a := 1) (b := 3) one_pos (by norm_num)
  refine ⟨res, h1, le_antisymm (h7 0 0 9 ?_) ?_, le_antisymm (h7 0 1 4 ?_) ?_⟩
  · intro w hw hw'
    simp only [of_apply, cons_val', cons_val_zero, cons_val_fin_one, Complex.norm_real, Real.norm_eq_abs, sq_abs]
    nlinarith
  · have := h5 0 0 999 le_rfl
    rw [h3] at this
    norm_num at this
    exact this
  · intro w _ _
    norm_num
  · have := h5 0 1 0 (by norm_num)
    norm_num at this
    exact this

/-- C134, errors: the sensitivities are computed exactly if there is a state, the band of a peak search does not reach zero,
and the numbers of inputs and states agree or one of them is one; otherwise `ValueError` is raised. -/
theorem C134_raises (G : ℝ → Matrix (Fin L) (Fin N) ℂ) (a b snr P : ℝ) (mx spectrum : Bool) :
    (((mx = true ∧ (a = 0 ∨ b = 0)) ∨ N = 0 ∨ (L ≠ N ∧ L ≠ 1 ∧ N ≠ 1)) →
      sensitivities G a b snr P mx spectrum = .error .valueError) ∧
    (¬ ((mx = true ∧ (a = 0 ∨ b = 0)) ∨ N = 0 ∨ (L ≠ N ∧ L ≠ 1 ∧ N ≠ 1)) →
      ∃ v, sensitivities G a b snr P mx spectrum = .ok v) := by
  have key : ((mx = true ∧ (a = 0 ∨ b = 0)) ∧ noiseBalance G a b mx = .error .valueError) ∨
      (¬ (mx = true ∧ (a = 0 ∨ b = 0)) ∧ ∃ res : Fin L → Fin N → ℝ, noiseBalance G a b mx = balanceOf res) := by
    unfold noiseBalance noiseGain peakPower
    cases mx
    · right
      exact ⟨by simp, _, rfl⟩
    · by_cases h : a = 0 ∨ b = 0
      · left
        simp [h]
      · right
        refine ⟨by simpa using h, fun l n => ⨆ k : Fin 1000, ‖G (geomFreq a b k) l n‖ ^ 2, ?_⟩
        rw [if_pos rfl, if_neg h]
  constructor
  · intro h
    unfold sensitivities
    rcases key with ⟨-, e⟩ | ⟨hn, res, e⟩
    · rw [e]
    · rw [e]
      rcases h with h | h | ⟨h1, h2, h3⟩
      · exact absurd h hn
      · unfold balanceOf
        rw [if_pos h]
      · unfold balanceOf
        by_cases h0 : N = 0
        · rw [if_pos h0]
        · rw [if_neg h0, if_neg (by tauto), if_neg h3]
  · intro h
    unfold sensitivities
    rcases key with ⟨hp, -⟩ | ⟨hn, res, e⟩
    · exact absurd (Or.inl hp) h
    · have hb : ∃ t, balanceOf res = .ok t := by
        unfold balanceOf
        rw [if_neg (by tauto)]
        by_cases h1 : L = N ∨ L = 1
        · rw [if_pos h1]
          exact ⟨_, rfl⟩
        · rw [if_neg h1, if_pos (by tauto)]
          exact ⟨_, rfl⟩
      obtain ⟨t, ht⟩ := hb
      rw [e, ht]
      dsimp only
      cases spectrum
      · exact ⟨_, rfl⟩
      · exact ⟨_, rfl⟩

example : sensitivities (fun _ => (0 : Matrix (Fin 2) (Fin 3) ℂ)) 1 2 100 1 true false = .error .valueError :=
  (C134_raises _ _ _ _ _ _ _).1 (by norm_num)

example : ∃ v, sensitivities (fun _ => (0 : Matrix (Fin 1) (Fin 3) ℂ)) 1 2 100 1 true false = .ok v :=
  (C134_raises _ _ _ _ _ _ _).2 (by norm_num)

/-- C134 (part that holds): with one input, noise of the returned powers at the states reaches the estimate in equal shares,
and altogether with `input_power / target_snr` times the largest of the gains.  With `spectrum=True` the same holds of the
returned density times the width of the band, in the unit of the limits of the band (radians per second, not hertz).
Missing: the largest gain is not divided out, and with several inputs the shares are not equal; see `C134_snr_false` and
`C134_rows_false`. -/
theorem C134_shares_partial (G : ℝ → Matrix (Fin 1) (Fin N) ℂ) (a b snr P : ℝ) (mx : Bool) (res v d : Fin 1 → Fin N → ℝ)
    (hres : noiseGain G a b mx = .ok res) (hne : ∀ n, res 0 n ≠ 0)
    (hv : sensitivities G a b snr P mx false = .ok v) (hd : sensitivities G a b snr P mx true = .ok d) (hab : a ≠ b) :
    ∃ top, (∀ n, res 0 n ≤ top) ∧ (∃ n, res 0 n = top) ∧ (∀ n, v 0 n * res 0 n = P / snr * top / N) ∧
      ∑ n, v 0 n * res 0 n = P / snr * top ∧ ∀ n, d 0 n * (b - a) = v 0 n := by
  have hN : N ≠ 0 := by
    intro h0
    have := (C134_raises G a b snr P mx false).1 (Or.inr (Or.inl h0))
    rw [hv] at this
    cases this
  have : Nonempty (Fin N) := ⟨⟨0, Nat.pos_of_ne_zero hN⟩⟩
  have hN' : (N : ℝ) ≠ 0 := by exact_mod_cast hN
  have hbal : noiseBalance G a b mx = .ok ⟨1, N, fun l n => rowMax res 0 / entry res l n / N⟩ := by
    unfold noiseBalance
    rw [hres]
    dsimp only
    unfold balanceOf
    rw [if_neg hN, if_pos (Or.inr rfl)]
    simp
  unfold sensitivities at hv hd
  rw [hbal] at hv hd
  simp only [Bool.false_eq_true, if_false, if_true, Except.ok.injEq] at hv hd
  have hrow : rowMax res 0 = ⨆ n, res 0 n := by
    unfold rowMax
    rw [dif_pos one_pos]
    rfl
  have hval : ∀ n, v 0 n = P / snr * (rowMax res 0 / res 0 n / N) := by
    intro n
    rw [← hv]
    dsimp only
    congr 3
    unfold entry
    rw [dif_pos ⟨by simp, n.2⟩]
  have hshare : ∀ n, v 0 n * res 0 n = P / snr * (rowMax res 0) / N := by
    intro n
    rw [hval n]
    have := hne n
    field_simp
  refine ⟨rowMax res 0, ?_, ?_, hshare, ?_, ?_⟩
  · intro n
    rw [hrow]
    exact le_ciSup (f := fun n => res 0 n) (Set.finite_range _).bddAbove n
  · rw [hrow]
    exact exists_eq_ciSup_of_finite (f := fun n => res 0 n)
  · rw [Finset.sum_congr rfl fun n _ => hshare n]
    rw [Finset.sum_const, Finset.card_univ, Fintype.card_fin, nsmul_eq_mul]
    field_simp
  · intro n
    rw [← hd, ← hv]
    have : b - a ≠ 0 := sub_ne_zero.2 hab.symm
    dsimp only
    field_simp

example : ∃ res v d, noiseGain (fun _ => (!![2, 3] : Matrix (Fin 1) (Fin 2) ℂ)) 1 2 false = .ok res ∧
    (∀ n, res 0 n ≠ 0) ∧
    sensitivities (fun _ => (!![2, 3] : Matrix (Fin 1) (Fin 2) ℂ)) 1 2 100 1 false false = .ok v ∧
    sensitivities (fun _ => (!![2, 3] : Matrix (Fin 1) (Fin 2) ℂ)) 1 2 100 1 false true = .ok d := by
  obtain ⟨v, hv⟩ := (C134_raises (fun _ => (!![2, 3] : Matrix (Fin 1) (Fin 2) ℂ)) 1 2 100 1 false false).2 (by norm_num)
  obtain ⟨d, hd⟩ := (C134_raises (fun _ => (!![2, 3] : Matrix (Fin 1) (Fin 2) ℂ)) 1 2 100 1 false true).2 (by norm_num)
  refine ⟨_, v, d, rfl, ?_, hv, hd⟩
  intro n
  fin_cases n <;> norm_num [bandPower]

/-- An integrator with input gain one half. -/
@[reducible] noncomputable def exHalf : Sys ℂ where
  N := 1
  L := 1
  M := 1
  Mt := 1
  Nt := 1
  A := fun _ _ => 0
  B := fun _ _ => 1 / 2
  CT := fun _ _ => 1
  Gamma := some fun _ _ => 1
  GammaT := some fun _ _ => 1
  D := fun _ _ => 0
  Bt := fun _ _ => 0
  At := fun _ _ => 0

theorem exHalf_general (ω : ℝ) (hω : ω ≠ 0) (i : Fin 1) (j : Fin 1) : exHalf.generalAtf (jw ω) i j = 1 / jw ω := by
  have hj : jw ω ≠ 0 := by
    unfold jw
    simp [hω, Complex.I_ne_zero]
  have e : (jw ω • (1 : Matrix (Fin 1) (Fin 1) ℂ) - toM 1 1 exHalf.A) * ((1 / jw ω) • 1) = 1 := by
    have h0 : toM 1 1 exHalf.A = 0 := by
      ext i j
      rfl
    rw [h0, sub_zero, Matrix.smul_mul, Matrix.one_mul, smul_smul, mul_one_div_cancel hj, one_smul]
  have e2 : exHalf.generalAtf (jw ω) = ((1 / jw ω) • 1 : Matrix (Fin 1) (Fin 1) ℂ) := Matrix.inv_eq_right_inv e
  rw [e2]
  obtain rfl : i = j := Subsingleton.elim _ _
  simp

theorem exHalf_gain (ω : ℝ) (hω : 0 < ω) :
    ‖exHalf.generalTransfer (fun X => X⁻¹) 1 ω (0 : Fin 1) (0 : Fin 1)‖ = (1 / 2) / (1 / 4 + ω ^ 2) := by
  have h := exHalf_general ω hω.ne' 0 0
  have ht : exHalf.tfm (jw ω) (0 : Fin 1) (0 : Fin 1) = 1 / jw ω * (1 / 2) := by
    have e : exHalf.tfm (jw ω) (0 : Fin 1) (0 : Fin 1) = exHalf.D 0 0 + ∑ k : Fin 1, exHalf.CT 0 k * ∑ m : Fin 1,
      exHalf.generalAtf (jw ω) k m * exHalf.B m 0 := rfl
    rw [e, Fin.sum_univ_one, Fin.sum_univ_one, h]
    simp
  have hg : exHalf.generalTfm (jw ω) (0 : Fin 1) (0 : Fin 1) = 1 / jw ω := by
    have e : exHalf.generalTfm (jw ω) (0 : Fin 1) (0 : Fin 1) = ∑ k : Fin 1, exHalf.CT 0 k *
      exHalf.generalAtf (jw ω) k 0 := rfl
    rw [e, Fin.sum_univ_one, h]
    simp
  have hn := (C41_single_input one_pos rfl (exHalf.tfm (jw ω)) (fun X => X⁻¹)
    (inv_isPinv (gram_posDef one_pos (exHalf.tfm (jw ω))).isUnit) (0 : Fin 1)).2 (0 : Fin 1)
  have e : exHalf.generalTransfer (fun X => X⁻¹) 1 ω (0 : Fin 1) (0 : Fin 1) =
      ∑ n : Fin 1, ((ntf (fun X => X⁻¹) 1 (exHalf.tfm (jw ω)) (0 : Fin 1) n : ℝ) : ℂ) *
        exHalf.generalTfm (jw ω) n (0 : Fin 1) := rfl
  have hs : ∑ n : Fin exHalf.Nt, ‖exHalf.tfm (jw ω) n (0 : Fin 1)‖ ^ 2 = ‖exHalf.tfm (jw ω) (0 : Fin 1) (0 : Fin 1)‖ ^ 2 :=
    Fin.sum_univ_one _
  have hj : ‖jw ω‖ = ω := by
    unfold jw
    rw [norm_mul, Complex.norm_I, mul_one, Complex.norm_real, Real.norm_of_nonneg hω.le]
  rw [e, Fin.sum_univ_one, hn, hs, ht, hg, norm_mul, Complex.norm_real, Real.norm_of_nonneg (by positivity), norm_mul, norm_div,
    hj]
  norm_num
  field_simp
  ring

/-- **C134 is false**, the target: for an integrator with input gain one half, noise at the state with the returned power
can reach the estimate with more than twice `input_power / target_snr` in the band for which it was computed. -/
theorem C134_snr_false : ∃ v, sensitivities (exHalf.generalTransfer (fun X => X⁻¹) 1) (1 / 4) 1 100 (1 / 2) true false =
      .ok v ∧ ∃ w, 1 / 4 ≤ w ∧ w ≤ 1 ∧
      2 * ((1 / 2) / 100) < v (0 : Fin 1) (0 : Fin 1) *
        ‖exHalf.generalTransfer (fun X => X⁻¹) 1 w (0 : Fin 1) (0 : Fin 1)‖ ^ 2 := by
  obtain ⟨v, hv⟩ := (C134_raises (exHalf.generalTransfer (fun X => X⁻¹) 1) (1 / 4) 1 100 (1 / 2) true false).2
    (by norm_num)
  obtain ⟨d, hd⟩ := (C134_raises (exHalf.generalTransfer (fun X => X⁻¹) 1) (1 / 4) 1 100 (1 / 2) true true).2
    (by norm_num)
  obtain ⟨res, ω, h1, h2, h3, h4, -, h5, h6, h7⟩ := C134_peak (exHalf.generalTransfer (fun X => X⁻¹) 1)
    (a := 1 / 4) (b := 1) (by norm_num) (by norm_num)
  have hlow := h5 (0 : Fin 1) (0 : Fin 1) 0 (by norm_num)
  rw [h2, exHalf_gain _ (by norm_num)] at hlow
  norm_num at hlow
  obtain ⟨k, hk, he⟩ := h6 (0 : Fin 1) (0 : Fin 1)
  obtain ⟨top, t1, t2, t3, -, -⟩ := C134_shares_partial (exHalf.generalTransfer (fun X => X⁻¹) 1) (1 / 4) 1 100 (1 / 2) true res v d
    h1 (by
      intro n
      obtain rfl : n = (0 : Fin 1) := Subsingleton.elim _ _
      have : res (0 : Fin 1) (0 : Fin 1) ≠ 0 := by linarith
      exact this) hv hd (by norm_num)
  refine ⟨v, hv, ω k, (h4 k hk).1, (h4 k hk).2, ?_⟩
  have ht := t1 (0 : Fin 1)
  have := t3 (0 : Fin 1)
  rw [← he, this]
  have hN : ((exHalf.N : ℕ) : ℝ) = 1 := by norm_num
  rw [hN]
  norm_num
  linarith

/-- **C134 is false**, several inputs: with as many inputs as states, the shares of an input are not equal, because the
largest gain of another input is used. -/
theorem C134_rows_false : ∃ (G : ℝ → Matrix (Fin 2) (Fin 2) ℂ) (res v : Fin 2 → Fin 2 → ℝ),
    noiseGain G 1 2 false = .ok res ∧ (∀ l n, res l n ≠ 0) ∧ sensitivities G 1 2 1 1 false false = .ok v ∧
      v 0 0 * res 0 0 = 2 ∧ v 0 1 * res 0 1 = 8 := by
  have hres : ∀ l n, bandPower (fun _ => (!![1, 2; 3, 4] : Matrix (Fin 2) (Fin 2) ℂ)) 1 2 l n =
      (!![1, 4; 9, 16] : Matrix (Fin 2) (Fin 2) ℝ) l n := by
    intro l n
    fin_cases l <;> fin_cases n <;> norm_num [bandPower]
  have h0 : rowMax (bandPower (fun _ => (!![1, 2; 3, 4] : Matrix (Fin 2) (Fin 2) ℂ)) 1 2) 0 = 4 := by
    unfold rowMax
    rw [dif_pos (by norm_num)]
    refine le_antisymm (ciSup_le fun n => ?_) ?_
    · rw [hres]
      fin_cases n <;> norm_num
    · have := le_ciSup (f := fun n => bandPower (fun _ => (!![1, 2; 3, 4] : Matrix (Fin 2) (Fin 2) ℂ)) 1 2 0 n)
        (Set.finite_range _).bddAbove 1
      simp only [hres] at this ⊢
      norm_num at this ⊢
      exact this
  have h1 : rowMax (bandPower (fun _ => (!![1, 2; 3, 4] : Matrix (Fin 2) (Fin 2) ℂ)) 1 2) 1 = 16 := by
    unfold rowMax
    rw [dif_pos (by norm_num)]
    refine le_antisymm (ciSup_le fun n => ?_) ?_
    · rw [hres]
      fin_cases n <;> norm_num
    · have := le_ciSup (f := fun n => bandPower (fun _ => (!![1, 2; 3, 4] : Matrix (Fin 2) (Fin 2) ℂ)) 1 2 1 n)
        (Set.finite_range _).bddAbove 1
      simp only [hres] at this ⊢
      norm_num at this ⊢
      exact this
  refine ⟨fun _ => !![1, 2; 3, 4], _, _, rfl, ?_, rfl, ?_, ?_⟩
  · intro l n
    rw [hres]
    fin_cases l <;> fin_cases n <;> norm_num
  · simp only [Fin.val_zero]
    norm_num [entry, hres, h0]
  · simp only [Fin.val_zero, Fin.val_one]
    norm_num [entry, hres, h1]

/-! ### C135 -/

/-- The evaluated frequencies are those of the band raised to the power `ln 10`. -/
theorem logFreq_eq {a b : ℝ} (ha : 0 < a) (hb : 0 < b) (k : ℕ) :
    logFreq a b k = geomFreq a b k ^ Real.log 10 := by
  have hq : 0 < b / a := div_pos hb ha
  have hg : 0 < geomFreq a b k := by unfold geomFreq; positivity
  unfold logFreq
  rw [Real.rpow_def_of_pos (by norm_num), Real.rpow_def_of_pos hg]
  congr 1
  unfold geomFreq
  rw [Real.log_mul ha.ne' (Real.rpow_pos_of_pos hq _).ne', Real.log_rpow hq, Real.log_div hb.ne' ha.ne']
  ring

/-- C135 (part that holds): each state and input is given the same share of the estimate, the amplitude times the largest
gain over the evaluated frequencies, and the largest sum of the amplitudes over the inputs is `10 ^ (-SFDR / 10)`.
Missing: the frequencies are not those of the band, see `C135_band_false`. -/
theorem C135_shares_partial (G : ℝ → Matrix (Fin L) (Fin N) ℂ) (a b SFDR : ℝ) (hL : L ≠ 0) (hN : N ≠ 0)
    (ha : 0 < a) (hb : 0 < b)
    (hne : ∀ l n, ∃ k ≤ 999, G (geomFreq a b k ^ Real.log 10) l n ≠ 0) :
    ∃ (v peak : Fin L → Fin N → ℝ), maxHarmonic G a b SFDR = .ok v ∧
      (∀ l n, ∀ k ≤ 999, ‖G (geomFreq a b k ^ Real.log 10) l n‖ ≤ peak l n) ∧
      (∀ l n, ∃ k ≤ 999, peak l n = ‖G (geomFreq a b k ^ Real.log 10) l n‖) ∧
      (∃ c, 0 < c ∧ ∀ l n, v l n * peak l n = c) ∧
      (∀ n, ∑ l, v l n ≤ 10 ^ (-SFDR / 10)) ∧ ∃ n, ∑ l, v l n = 10 ^ (-SFDR / 10) := by
  have : Nonempty (Fin L) := ⟨⟨0, Nat.pos_of_ne_zero hL⟩⟩
  have : Nonempty (Fin N) := ⟨⟨0, Nat.pos_of_ne_zero hN⟩⟩
  have hle : ∀ l n, ∀ k ≤ 999, ‖G (geomFreq a b k ^ Real.log 10) l n‖ ≤ logPeak G a b l n := by
    intro l n k hk
    rw [← logFreq_eq ha hb]
    exact le_ciSup (f := fun k : Fin 1000 => ‖G (logFreq a b k) l n‖) (Set.finite_range _).bddAbove ⟨k, by omega⟩
  have hat : ∀ l n, ∃ k ≤ 999, logPeak G a b l n = ‖G (geomFreq a b k ^ Real.log 10) l n‖ := by
    intro l n
    obtain ⟨k, hk⟩ := exists_eq_ciSup_of_finite (f := fun k : Fin 1000 => ‖G (logFreq a b k) l n‖)
    refine ⟨k, by omega, ?_⟩
    rw [← logFreq_eq ha hb]
    exact hk.symm
  have hpos : ∀ l n, 0 < logPeak G a b l n := by
    intro l n
    obtain ⟨k, hk, h⟩ := hne l n
    exact lt_of_lt_of_le (norm_pos_iff.2 h) (hle l n k hk)
  set mi := ⨆ p : Fin L × Fin N, logPeak G a b p.1 p.2 with hmi
  have hmi0 : 0 < mi := lt_of_lt_of_le (hpos (Classical.arbitrary _) (Classical.arbitrary _))
    (le_ciSup (f := fun p : Fin L × Fin N => logPeak G a b p.1 p.2) (Set.finite_range _).bddAbove
      (Classical.arbitrary _, Classical.arbitrary _))
  have hlh : ∀ l n, localHarmonics G a b l n = mi / logPeak G a b l n := by
    intro l n
    unfold localHarmonics
    rw [← hmi, one_div_div]
  have hlh0 : ∀ l n, 0 < localHarmonics G a b l n := by
    intro l n
    rw [hlh]
    exact div_pos hmi0 (hpos l n)
  have hcol : ∀ n, ∑ l, |localHarmonics G a b l n| = ∑ l, localHarmonics G a b l n := fun n =>
    Finset.sum_congr rfl fun l _ => abs_of_pos (hlh0 l n)
  have hno : ∀ n, ∑ l, localHarmonics G a b l n ≤ normOne (localHarmonics G a b) := by
    intro n
    rw [← hcol n]
    exact le_ciSup (f := fun n => ∑ l, |localHarmonics G a b l n|) (Set.finite_range _).bddAbove n
  have hno0 : 0 < normOne (localHarmonics G a b) :=
    lt_of_lt_of_le (Finset.sum_pos (fun l _ => hlh0 l (Classical.arbitrary _)) Finset.univ_nonempty) (hno _)
  have hs : Fom.snrFromDB SFDR = ((10 : ℝ) ^ (-SFDR / 10))⁻¹ := by
    unfold Fom.snrFromDB
    rw [neg_div, Real.rpow_neg (by norm_num), inv_inv]
  have h10 : (0 : ℝ) < 10 ^ (-SFDR / 10) := Real.rpow_pos_of_pos (by norm_num) _
  refine ⟨_, logPeak G a b, if_neg (by tauto), hle, hat, ⟨mi / normOne (localHarmonics G a b) * 10 ^ (-SFDR / 10),
    by positivity, ?_⟩, ?_, ?_⟩
  · intro l n
    have := hpos l n
    rw [hlh, hs]
    field_simp
  · intro n
    rw [← Finset.sum_div, ← Finset.sum_div, hs, div_inv_eq_mul]
    have : (∑ l, localHarmonics G a b l n) / normOne (localHarmonics G a b) ≤ 1 := (div_le_one hno0).2 (hno n)
    nlinarith
  · obtain ⟨n, hn⟩ := exists_eq_ciSup_of_finite (f := fun n => ∑ l, |localHarmonics G a b l n|)
    refine ⟨n, ?_⟩
    rw [← Finset.sum_div, ← Finset.sum_div, hs, div_inv_eq_mul, ← hcol n, hn]
    have : normOne (localHarmonics G a b) / normOne (localHarmonics G a b) = 1 := div_self hno0.ne'
    unfold normOne at this
    unfold normOne
    rw [this, one_mul]

example (l : Fin 1) (n : Fin 2) : ∃ k ≤ 999, (fun ω : ℝ => (!![(ω : ℂ), 2] : Matrix (Fin 1) (Fin 2) ℂ))
    (geomFreq 1 3 k ^ Real.log 10) l n ≠ 0 := by
  refine ⟨0, by norm_num, ?_⟩
  fin_cases l
  fin_cases n <;> simp [geomFreq]

theorem one_lt_log_ten : 1 < Real.log 10 := by
  rw [Real.lt_log_iff_exp_lt (by norm_num)]
  have := Real.exp_one_lt_d9
  linarith

/-- **C135 is false**: for a band above one radian per second the frequencies at which the gains are evaluated do not fill
the band: each is larger than it should be, the last lies above the band, and if the band is narrower than
`[a, a ^ ln 10]`, none lies in the band. -/
theorem C135_band_false {a b : ℝ} (ha : 1 < a) (hab : a ≤ b) :
    (∀ k ≤ 999, geomFreq a b k < logFreq a b k) ∧ b < logFreq a b 999 ∧
      (b < a ^ Real.log 10 → ∀ k ≤ 999, b < logFreq a b k) := by
  have ha0 : 0 < a := by linarith
  obtain ⟨h0, h1, h2, -⟩ := geomFreq_band ha0 hab
  have hlt : ∀ k ≤ 999, geomFreq a b k < logFreq a b k := by
    intro k hk
    rw [logFreq_eq ha0 (by linarith)]
    have hg := (h2 k hk).1
    calc geomFreq a b k = geomFreq a b k ^ (1 : ℝ) := (Real.rpow_one _).symm
      _ < geomFreq a b k ^ Real.log 10 := Real.rpow_lt_rpow_of_exponent_lt (by linarith) one_lt_log_ten
  refine ⟨hlt, ?_, ?_⟩
  · have := hlt 999 le_rfl
    rwa [h1] at this
  · intro hb k hk
    rw [logFreq_eq ha0 (by linarith)]
    refine lt_of_lt_of_le hb ?_
    exact Real.rpow_le_rpow ha0.le (h2 k hk).1 (by linarith [one_lt_log_ten])

/-- The band from 4 to 4.1 radians per second is missed altogether. -/
example : ∀ k ≤ 999, (4.1 : ℝ) < logFreq 4 4.1 k := by
  refine (C135_band_false (a := 4) (b := 4.1) (by norm_num) (by norm_num)).2.2 ?_
  have h2 : (2 : ℝ) ≤ Real.log 10 := by
    rw [Real.le_log_iff_exp_le (by norm_num), show (2 : ℝ) = 1 + 1 by norm_num, Real.exp_add]
    have := Real.exp_one_lt_d9
    have h0 := Real.exp_pos 1
    nlinarith
  calc (4.1 : ℝ) < 4 ^ (2 : ℝ) := by norm_num
    _ ≤ 4 ^ Real.log 10 := Real.rpow_le_rpow_of_exponent_le (by norm_num) h2

/-- **C135 is false**, the sum: with one input the amplitudes of the states are not normalised together; for two states of
equal gain each gets the whole of `10 ^ (-SFDR / 10)`. -/
theorem C135_total_false (SFDR : ℝ) : ∃ v, maxHarmonic (fun _ => (!![1, 1] : Matrix (Fin 1) (Fin 2) ℂ)) 1 2 SFDR = .ok v ∧
    ∑ n, v 0 n = 2 * 10 ^ (-SFDR / 10) := by
  obtain ⟨v, p, h1, h2, h3, ⟨c, hc, h4⟩, h5, ⟨n, h6⟩⟩ := C135_shares_partial
    (fun _ => (!![1, 1] : Matrix (Fin 1) (Fin 2) ℂ)) 1 2 SFDR one_ne_zero two_ne_zero one_pos two_pos (by
      intro l n
      refine ⟨0, by norm_num, ?_⟩
      fin_cases l
      fin_cases n <;> simp)
  refine ⟨v, h1, ?_⟩
  have hp : ∀ n, p 0 n = 1 := by
    intro n
    obtain ⟨k, -, h⟩ := h3 0 n
    rw [h]
    fin_cases n <;> simp
  have hv : ∀ n, v 0 n = c := by
    intro n
    have := h4 0 n
    rwa [hp, mul_one] at this
  rw [Fin.sum_univ_one, hv] at h6
  rw [Fin.sum_univ_two, hv, hv, h6]
  ring

end Cbadc.Analog
