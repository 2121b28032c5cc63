import Mathlib.Analysis.SpecialFunctions.Integrals.Basic
import Mathlib.MeasureTheory.Integral.IntervalIntegral.FundThmCalculus
import Mathlib.Tactic.NormNum
import Verif.Lemmas.FilterExample
import Verif.Lemmas.GlobalControlMain

/-! # Integrators with global control -/

namespace Cbadc.Global

open Matrix Set Global.Spec MeasureTheory Cbadc.Analog Cbadc.Control

theorem accumulates_integral {w : ℝ → ℝ} (hw : Continuous w) (a b : ℝ) : Accumulates w a b (fun t => ∫ s in a..t, w s) := by
  have hd : ∀ t, HasDerivAt (fun t => ∫ s in a..t, w s) (w t) t := fun t => hw.integral_hasStrictDerivAt a t |>.hasDerivAt
  exact ⟨intervalIntegral.integral_same, fun t _ => (hd t).continuousAt.continuousWithinAt, ∅, countable_empty, fun t _ => hd t⟩

/-- An integrator with `M` control signals, `x' = u + Σ γ_m s_m`, whose state is observed (an example of
`src/cbadc/analog_system/analog_system.py:118-265`). -/
noncomputable abbrev intSys (M : ℕ) (γ : ℕ → ℝ) (d : ℝ) : Sys ℝ where
  N := 1
  L := 1
  M := M
  Mt := M
  Nt := 1
  A := fun _ _ => 0
  B := fun _ _ => 1
  CT := fun _ _ => 1
  Gamma := some fun _ m => γ m
  GammaT := some fun _ _ => 1
  D := fun _ _ => d
  Bt := fun _ _ => 0
  At := fun _ _ => 0

variable {M : ℕ} {γ : ℕ → ℝ} {d : ℝ} {dc : DC ℝ M}

theorem int_A : toM (intSys M γ d).N (intSys M γ d).N (intSys M γ d).A = 0 := by ext; rfl

theorem one_mulVec_fin (X : Matrix (Fin 1) (Fin 1) ℝ) (y : Fin 1 → ℝ) : X *ᵥ y = fun _ => X 0 0 * y 0 := by
  funext i
  rw [Subsingleton.elim i 0]
  simp [Matrix.mulVec, dotProduct]

theorem int_CT (y : Fin 1 → ℝ) : toM (intSys M γ d).Nt (intSys M γ d).N (intSys M γ d).CT *ᵥ y = y := by
  refine (one_mulVec_fin _ _).trans ?_
  funext i
  rw [Subsingleton.elim i 0]
  exact one_mul _

theorem int_B (y : Fin 1 → ℝ) : toM (intSys M γ d).N (intSys M γ d).L (intSys M γ d).B *ᵥ y = y := by
  refine (one_mulVec_fin _ _).trans ?_
  funext i
  rw [Subsingleton.elim i 0]
  exact one_mul _

/-- trajectories of the integrator -/
theorem int_solves {v y : ℝ → ℝ} {a b : ℝ} {J : Set ℝ} (hJ : J.Countable) (hc : ContinuousOn y (Icc a b))
    (hd : ∀ t ∈ Ioo a b \ J, HasDerivAt y (v t) t) :
    Solves (toM (intSys M γ d).N (intSys M γ d).N (intSys M γ d).A) (fun t _ => v t) a b (fun t _ => y t) := by
  refine ⟨continuousOn_pi.2 fun _ => hc, J, hJ, fun t ht => hasDerivAt_pi.2 fun i => (hd t ht).congr_deriv ?_⟩
  rw [int_A, Matrix.zero_mulVec]
  simp

theorem corrected_ne {k m i : Fin M} (h : i ≠ m) (t : ℝ) : corrected dc k m t i = 0 := by
  have : ∀ t, impulseResponse dc m t i = 0 := fun t => if_neg fun h' => h h'.1
  rw [corrected]
  split <;> rw [this]

theorem int_Gamma (k m : Fin M) (t : ℝ) :
    toM 1 M (fun _ m => γ m) *ᵥ corrected dc k m t = fun _ => γ m * corrected dc k m t m := by
  funext i
  rw [Matrix.mulVec, dotProduct, Finset.sum_eq_single m]
  · rfl
  · intro j _ hj
    rw [corrected_ne hj, mul_zero]
  · exact fun h => absurd (Finset.mem_univ m) h

/-- The rows of the global control of the integrator, from the responses `p m` to the control signals. -/
theorem int_row {k : Fin M} {φ : ℝ} (p : Fin M → ℝ → ℝ) (hp : ∀ m, Continuous (p m)) (hp0 : ∀ m, p m φ = 0)
    (J : Set ℝ) (hJ : J.Countable)
    (hd : ∀ m, ∀ t ∈ Ioo φ (φ + dc.T) \ J, HasDerivAt (p m) (γ m * corrected dc k m t m) t)
    (hQ : ∫ t in φ..φ + dc.T, p k t * p k t ≠ 0) :
    Row (intSys M γ d) (fun _ m => γ m) dc φ k
      (fun _ => -1 / (∫ t in φ..φ + dc.T, p k t * p k t) * ∫ t in φ..φ + dc.T, p k t)
      (fun _ => -1 / (∫ t in φ..φ + dc.T, p k t * p k t) * ∫ t in φ..φ + dc.T, p k t * (t - φ))
      (fun i => if h : i < M then (if (⟨i, h⟩ : Fin M) ≠ k then
        -1 / (∫ t in φ..φ + dc.T, p k t * p k t) * ∫ t in φ..φ + dc.T, p k t * p ⟨i, h⟩ t else 0) else 0) := by
  refine ⟨fun _ t _ => t - φ, fun m t _ => p m t, fun _ t => ∫ s in φ..t, p k s, fun _ t => ∫ s in φ..t, p k s * (s - φ),
    fun m t => ∫ s in φ..t, p k s * p m s, ⟨fun l => ?_, fun l => ?_, fun m => ?_, fun m => ?_, fun n => ?_, fun l => ?_, fun m => ?_⟩,
    hQ, fun l => rfl, fun m => ?_, fun n => rfl⟩
  · refine (int_solves (v := fun _ => 1) countable_empty (continuous_id.sub continuous_const).continuousOn fun t _ =>
      (hasDerivAt_id t).sub_const φ).congr countable_empty fun t ht => ?_
    refine Eq.trans ?_ (int_B _).symm
    funext i
    rw [Subsingleton.elim i 0, Subsingleton.elim l 0, zoh, if_pos ⟨by linarith [ht.1.1], by linarith [ht.1.2]⟩]
    rfl
  · funext i
    exact sub_self φ
  · refine (int_solves hJ (hp m).continuousOn (hd m)).congr countable_empty fun t ht => ?_
    exact (int_Gamma k m t).symm
  · funext i
    exact hp0 m
  · have e : ∀ t, ((toM (intSys M γ d).Nt (intSys M γ d).N (intSys M γ d).CT *ᵥ fun _ => p k t) ᵥ*
        (toM (intSys M γ d).Nt (intSys M γ d).N (intSys M γ d).CT *
          NormedSpace.exp ((t - φ) • toM (intSys M γ d).N (intSys M γ d).N (intSys M γ d).A))) n = p k t := by
      intro t
      rw [int_CT, int_A, smul_zero, NormedSpace.exp_zero, Matrix.mul_one, Subsingleton.elim n 0]
      simp [Matrix.vecMul, dotProduct, toM]
    simp only [e]
    exact accumulates_integral (hp k) _ _
  · have e : ∀ t, (toM (intSys M γ d).Nt (intSys M γ d).N (intSys M γ d).CT *ᵥ fun _ => p k t) ⬝ᵥ
        (toM (intSys M γ d).Nt (intSys M γ d).N (intSys M γ d).CT *ᵥ fun _ => t - φ) = p k t * (t - φ) := by
      intro t
      rw [int_CT, int_CT]
      simp [dotProduct]
    simp only [e]
    exact accumulates_integral ((hp k).mul (continuous_id.sub continuous_const)) _ _
  · have e : ∀ t, (toM (intSys M γ d).Nt (intSys M γ d).N (intSys M γ d).CT *ᵥ fun _ => p k t) ⬝ᵥ
        (toM (intSys M γ d).Nt (intSys M γ d).N (intSys M γ d).CT *ᵥ fun _ => p m t) = p k t * p m t := by
      intro t
      rw [int_CT, int_CT]
      simp [dotProduct]
    simp only [e]
    exact accumulates_integral ((hp k).mul (hp m)) _ _
  · simp

theorem int_energy (a b : ℝ) (y : ℝ → ℝ) :
    energy (toM (intSys M γ d).Nt (intSys M γ d).N (intSys M γ d).CT) a b (fun t _ => y t) = ∫ t in a..b, y t * y t := by
  have e : ∀ t, (toM (intSys M γ d).Nt (intSys M γ d).N (intSys M γ d).CT *ᵥ fun _ => y t) ⬝ᵥ
      (toM (intSys M γ d).Nt (intSys M γ d).N (intSys M γ d).CT *ᵥ fun _ => y t) = y t * y t := by
    intro t
    rw [int_CT]
    simp [dotProduct]
  rw [energy]
  simp only [e]

/-! ### One control signal, decided at the beginning of the period -/

theorem corrected_le {k m : Fin M} (h : m ≤ k) {t : ℝ} (h0 : 0 ≤ t) (h1 : t ≤ dc.T) : corrected dc k m t m = (dc.ir m).f t := by
  rw [corrected, if_neg (not_lt.2 h), impulseResponse, if_pos ⟨rfl, h0, h1⟩]

theorem corrected_end {k m : Fin M} (h : m ≤ k) {t : ℝ} (h1 : dc.T < t) : corrected dc k m t m = 0 := by
  rw [corrected, if_neg (not_lt.2 h), impulseResponse, if_neg fun h => absurd h.2.2 (not_le.2 h1)]

theorem corrected_later {k m : Fin M} (h : k < m) {t : ℝ} (h0 : 0 < t) : corrected dc k m t m = 0 := by
  rw [corrected, if_pos h, impulseResponse, if_neg fun h => absurd h.2.2 (not_le.2 (by linarith))]

/-- The result of `get_global_control` for an integrator with one control signal (an example of
`src/cbadc/analog_frontend.py:207-217`). -/
noncomputable abbrev oneGC (d gt bt : ℝ) : Sys ℝ :=
  { intSys 1 (fun _ => -1) d with GammaT := some fun _ _ => gt, D := fun _ _ => 0, Bt := fun _ _ => bt, At := fun _ _ => 0 }

theorem one_global {dc : DC ℝ 1} {gt bt : ℝ} {φ : ℝ}
    (h : Row (intSys 1 (fun _ => -1) d) (fun _ _ => -1) dc φ 0 (fun _ => gt) (fun _ => bt) (fun _ => 0)) :
    GlobalControl (intSys 1 (fun _ => -1) d) dc (fun _ => φ) (oneGC d gt bt) := by
  refine ⟨_, rfl, rfl, le_refl _, fun _ _ => gt, fun _ _ => bt, fun _ _ => 0, fun mt k hmt hk => ?_, ?_⟩
  · rw [Subsingleton.elim k 0]
    exact h
  · simp [Sys.new, checkGamma, checkGammaT, checkB, checkCT, checkOpt, Arr.shape0, Arr.shape1, Arr.entries, bind, Except.bind]

theorem oneA_row : Row (intSys 1 (fun _ => -1) d) (fun _ _ => -1) (Filter.exDC 0 (.step 0 1)) 0 0 (fun _ => 3 / 2) (fun _ => 1)
    (fun _ => 0) := by
  have q : ∫ t in (0 : ℝ)..0 + 1, -t * -t = 1 / 3 := by
    have : ∀ t : ℝ, -t * -t = t ^ 2 := fun t => by ring
    simp only [this, integral_pow]
    norm_num
  have e1 : ∫ t in (0 : ℝ)..0 + 1, -t = -(1 / 2) := by
    rw [intervalIntegral.integral_neg, integral_id]
    norm_num
  have e2 : ∫ t in (0 : ℝ)..0 + 1, -t * (t - 0) = -(1 / 3) := by
    have : ∀ t : ℝ, -t * (t - 0) = -(t ^ 2) := fun t => by ring
    simp only [this, intervalIntegral.integral_neg, integral_pow]
    norm_num
  have h := int_row (M := 1) (d := d) (γ := fun _ => -1) (dc := Filter.exDC 0 (.step 0 1)) (k := 0) (φ := 0) (fun _ t => -t)
    (fun _ => continuous_id.neg) (fun _ => neg_zero) ∅ countable_empty (fun m t ht => by
      refine (hasDerivAt_id t).neg.congr_deriv ?_
      have h0 : (0 : ℝ) ≤ t := ht.1.1.le
      have h1 : t ≤ 1 := by linarith [ht.1.2]
      rw [corrected_le (Fin.le_of_eq (Subsingleton.elim _ _)) h0 h1]
      show -1 = -1 * (if (0 : ℝ) ≤ t then (1 : ℝ) else 0)
      rw [if_pos h0]
      norm_num) (by
      show ∫ t in (0 : ℝ)..0 + 1, -t * -t ≠ 0
      rw [q]
      norm_num)
  convert h using 1
  · funext _
    show (3 : ℝ) / 2 = -1 / (∫ t in (0 : ℝ)..0 + 1, -t * -t) * ∫ t in (0 : ℝ)..0 + 1, -t
    rw [q, e1]
    norm_num
  · funext _
    show (1 : ℝ) = -1 / (∫ t in (0 : ℝ)..0 + 1, -t * -t) * ∫ t in (0 : ℝ)..0 + 1, -t * (t - 0)
    rw [q, e2]
    norm_num
  · funext i
    split
    · rw [if_neg (not_not.2 (Subsingleton.elim _ _))]
    · rfl

theorem oneA_global : GlobalControl (intSys 1 (fun _ => -1) d) (Filter.exDC 0 (.step 0 1)) (fun _ => 0) (oneGC d (3 / 2) 1) :=
  one_global oneA_row

/-! ### A decision in the middle of the period -/

/-- A ramp that ends with the period. -/
theorem ramp_deriv {t : ℝ} (h : t ≠ 1) : HasDerivAt (fun t : ℝ => min t 1 - 1 / 2) (if t ≤ 1 then 1 else 0) t := by
  rcases lt_or_gt_of_ne h with h | h
  · rw [if_pos h.le]
    refine ((hasDerivAt_id t).sub_const (1 / 2)).congr_of_eventuallyEq ?_
    filter_upwards [Iio_mem_nhds h] with s hs
    rw [min_eq_left (le_of_lt hs)]
    rfl
  · rw [if_neg (not_le.2 h)]
    refine (hasDerivAt_const t (1 - 1 / 2 : ℝ)).congr_of_eventuallyEq ?_
    filter_upwards [Ioi_mem_nhds h] with s hs
    rw [min_eq_right (le_of_lt hs)]

theorem ramp_cont : Continuous fun t : ℝ => min t 1 - 1 / 2 := (continuous_id.min continuous_const).sub continuous_const

theorem ramp_integral {F : ℝ → ℝ} {p q : ℝ → ℝ} (hF : Continuous F) (hp : ∀ t ≤ 1, F t = p t) (hq : ∀ t, 1 ≤ t → F t = q t) :
    ∫ t in (1 / 2 : ℝ)..1 / 2 + 1, F t = (∫ t in (1 / 2 : ℝ)..1, p t) + ∫ t in (1 : ℝ)..3 / 2, q t := by
  have e : (1 / 2 + 1 : ℝ) = 3 / 2 := by norm_num
  rw [e, ← intervalIntegral.integral_add_adjacent_intervals (b := 1) (hF.intervalIntegrable _ _) (hF.intervalIntegrable _ _)]
  congr 1
  · refine intervalIntegral.integral_congr fun t ht => ?_
    rw [uIcc_of_le (by norm_num)] at ht
    exact hp t ht.2
  · refine intervalIntegral.integral_congr fun t ht => ?_
    rw [uIcc_of_le (by norm_num)] at ht
    exact hq t ht.1

theorem ramp_one : ∫ t in (1 / 2 : ℝ)..1 / 2 + 1, (min t 1 - 1 / 2) = 3 / 8 := by
  rw [ramp_integral (p := fun t => t - 1 / 2) (q := fun _ => 1 / 2) ramp_cont (fun t ht => by rw [min_eq_left ht])
    (fun t ht => by rw [min_eq_right ht]; norm_num), intervalIntegral.integral_sub intervalIntegral.intervalIntegrable_id
    intervalIntegrable_const, integral_id, intervalIntegral.integral_const, intervalIntegral.integral_const]
  norm_num

theorem ramp_sq : ∫ t in (1 / 2 : ℝ)..1 / 2 + 1, (min t 1 - 1 / 2) ^ 2 = 1 / 6 := by
  rw [ramp_integral (F := fun t => (min t 1 - 1 / 2) ^ 2) (p := fun t => (t - 1 / 2) ^ 2) (q := fun _ => 1 / 4) (ramp_cont.pow 2) (fun t ht => by rw [min_eq_left ht])
    (fun t ht => by rw [min_eq_right ht]; norm_num), intervalIntegral.integral_comp_sub_right (fun t => t ^ 2), integral_pow,
    intervalIntegral.integral_const]
  norm_num

theorem ramp_ramp : ∫ t in (1 / 2 : ℝ)..1 / 2 + 1, (min t 1 - 1 / 2) * (t - 1 / 2) = 11 / 48 := by
  rw [ramp_integral (F := fun t => (min t 1 - 1 / 2) * (t - 1 / 2)) (p := fun t => (t - 1 / 2) ^ 2) (q := fun t => 1 / 2 * (t - 1 / 2))
    (ramp_cont.mul (continuous_id.sub continuous_const)) (fun t ht => by rw [min_eq_left ht]; ring)
    (fun t ht => by rw [min_eq_right ht]; ring), intervalIntegral.integral_comp_sub_right (fun t => t ^ 2), integral_pow,
    intervalIntegral.integral_const_mul, intervalIntegral.integral_comp_sub_right (fun t => t), integral_id]
  norm_num

/-- the responses of a decision in the middle of the period -/
theorem half_deriv (c : ℝ) {dc : DC ℝ M} (hT : dc.T = 1) {k m : Fin M} (hm : m ≤ k) (hf : ∀ t, 1 / 2 ≤ t → (dc.ir m).f t = 1)
    (t : ℝ) (ht : t ∈ Ioo (1 / 2 : ℝ) (1 / 2 + dc.T) \ {1}) :
    HasDerivAt (fun t : ℝ => c * (min t 1 - 1 / 2)) (c * corrected dc k m t m) t := by
  have h1 : t ≠ 1 := ht.2
  refine ((ramp_deriv h1).const_mul c).congr_deriv ?_
  congr 1
  have h0 : (1 / 2 : ℝ) < t := ht.1.1
  rcases lt_or_gt_of_ne h1 with h | h
  · rw [if_pos h.le, corrected_le hm (by linarith) (by rw [hT]; exact h.le), hf t h0.le]
  · rw [if_neg (not_le.2 h), corrected_end hm (by rw [hT]; exact h)]

theorem step_half {t : ℝ} (h : 1 / 2 ≤ t) : ((Filter.Dac.step (1 / 2) 1).ir).f t = 1 := if_pos h

theorem oneC_global : GlobalControl (intSys 1 (fun _ => -1) d) (Filter.exDC 0 (.step (1 / 2) 1)) (fun _ => 1 / 2)
    (oneGC d (9 / 4) (11 / 8)) := by
  refine one_global ?_
  have q : ∫ t in (1 / 2 : ℝ)..1 / 2 + 1, (-1 * (min t 1 - 1 / 2)) * (-1 * (min t 1 - 1 / 2)) = 1 / 6 := by
    rw [← ramp_sq]
    exact intervalIntegral.integral_congr fun t _ => by ring
  have e1 : ∫ t in (1 / 2 : ℝ)..1 / 2 + 1, -1 * (min t 1 - 1 / 2) = -(3 / 8) := by
    rw [intervalIntegral.integral_const_mul, ramp_one]
    norm_num
  have e2 : ∫ t in (1 / 2 : ℝ)..1 / 2 + 1, -1 * (min t 1 - 1 / 2) * (t - 1 / 2) = -(11 / 48) := by
    have : ∀ t : ℝ, -1 * (min t 1 - 1 / 2) * (t - 1 / 2) = -1 * ((min t 1 - 1 / 2) * (t - 1 / 2)) := fun t => by ring
    simp only [this]
    rw [intervalIntegral.integral_const_mul, ramp_ramp]
    norm_num
  have h := int_row (M := 1) (d := d) (γ := fun _ => -1) (dc := Filter.exDC 0 (.step (1 / 2) 1)) (k := 0) (φ := 1 / 2)
    (fun _ t => -1 * (min t 1 - 1 / 2)) (fun _ => continuous_const.mul ramp_cont) (fun _ => by norm_num) {1} (countable_singleton 1)
    (fun m t ht => half_deriv (-1) rfl (Fin.le_of_eq (Subsingleton.elim _ _)) (fun t h => step_half h) t ht) (by
      show ∫ t in (1 / 2 : ℝ)..1 / 2 + 1, (-1 * (min t 1 - 1 / 2)) * (-1 * (min t 1 - 1 / 2)) ≠ 0
      rw [q]
      norm_num)
  convert h using 1
  · funext _
    show (9 : ℝ) / 4 = -1 / (∫ t in (1 / 2 : ℝ)..1 / 2 + 1, (-1 * (min t 1 - 1 / 2)) * (-1 * (min t 1 - 1 / 2))) *
      ∫ t in (1 / 2 : ℝ)..1 / 2 + 1, -1 * (min t 1 - 1 / 2)
    rw [q, e1]
    norm_num
  · funext _
    show (11 : ℝ) / 8 = -1 / (∫ t in (1 / 2 : ℝ)..1 / 2 + 1, (-1 * (min t 1 - 1 / 2)) * (-1 * (min t 1 - 1 / 2))) *
      ∫ t in (1 / 2 : ℝ)..1 / 2 + 1, -1 * (min t 1 - 1 / 2) * (t - 1 / 2)
    rw [q, e2]
    norm_num
  · funext i
    split
    · rw [if_neg (not_not.2 (Subsingleton.elim _ _))]
    · rfl

/-! ### Two control signals, the second one decided in the middle of the period -/

/-- Two control signals with phases 0 and 1/2 (an example of `src/cbadc/digital_control/digital_control.py:56-85`). -/
noncomputable abbrev twoDC : DC ℝ 2 :=
  ⟨1, 0, 0, fun m => if m = 0 then (Filter.Dac.step 0 1).ir else (Filter.Dac.step (1 / 2) 1).ir, fun _ => 0⟩

theorem two_f (m : Fin 2) {t : ℝ} (h : 1 / 2 ≤ t) : (twoDC.ir m).f t = 1 := by
  show (if m = 0 then (Filter.Dac.step 0 1).ir else (Filter.Dac.step (1 / 2) 1).ir).f t = 1
  split
  · exact if_pos (by linarith)
  · exact if_pos h

/-- The weights of the two control signals (an example). -/
noncomputable abbrev twoG : ℕ → ℝ := fun m => if m = 0 then -1 else -4

theorem two_row0 : ∃ At, Row (intSys 2 twoG d) (fun _ m => twoG m) twoDC 0 0 (fun _ => 3 / 2) (fun _ => 1) At ∧ At 1 = 0 := by
  have q : ∫ t in (0 : ℝ)..0 + 1, -t * -t = 1 / 3 := by
    have : ∀ t : ℝ, -t * -t = t ^ 2 := fun t => by ring
    simp only [this, integral_pow]
    norm_num
  have e1 : ∫ t in (0 : ℝ)..0 + 1, -t = -(1 / 2) := by
    rw [intervalIntegral.integral_neg, integral_id]
    norm_num
  have e2 : ∫ t in (0 : ℝ)..0 + 1, -t * (t - 0) = -(1 / 3) := by
    have : ∀ t : ℝ, -t * (t - 0) = -(t ^ 2) := fun t => by ring
    simp only [this, intervalIntegral.integral_neg, integral_pow]
    norm_num
  have h := int_row (M := 2) (d := d) (γ := twoG) (dc := twoDC) (k := 0) (φ := 0) (fun m t => if m = 0 then -t else 0)
    (fun m => by
      by_cases hm : m = 0
      · simp only [hm, if_true]; exact continuous_id.neg
      · simp only [hm, if_false]; exact continuous_const)
    (fun m => by by_cases hm : m = 0 <;> simp [hm]) ∅ countable_empty (fun m t ht => by
      have h0 : (0 : ℝ) < t := ht.1.1
      have h1 : t ≤ 1 := by linarith [ht.1.2]
      by_cases hm : m = 0
      · simp only [hm, if_true]
        refine (hasDerivAt_id t).neg.congr_deriv ?_
        rw [corrected_le (Fin.le_of_eq rfl) h0.le h1]
        show -1 = -1 * (if (0 : ℝ) ≤ t then (1 : ℝ) else 0)
        rw [if_pos h0.le]
        norm_num
      · simp only [hm, if_false]
        refine (hasDerivAt_const t (0 : ℝ)).congr_deriv ?_
        rw [corrected_later (Fin.pos_of_ne_zero hm) h0, mul_zero]) (by
      show ∫ t in (0 : ℝ)..0 + 1, -t * -t ≠ 0
      rw [q]
      norm_num)
  have h' : ∃ GT Bt At, Row (intSys 2 twoG d) (fun _ m => twoG m) twoDC 0 0 GT Bt At ∧ (fun _ => 3 / 2) = GT ∧ (fun _ => 1) = Bt ∧
      At 1 = 0 := by
    refine ⟨_, _, _, h, ?_, ?_, ?_⟩
    · funext _
      show (3 : ℝ) / 2 = -1 / (∫ t in (0 : ℝ)..0 + 1, -t * -t) * ∫ t in (0 : ℝ)..0 + 1, -t
      rw [q, e1]
      norm_num
    · funext _
      show (1 : ℝ) = -1 / (∫ t in (0 : ℝ)..0 + 1, -t * -t) * ∫ t in (0 : ℝ)..0 + 1, -t * (t - 0)
      rw [q, e2]
      norm_num
    · simp
  obtain ⟨GT, Bt, At, h1, rfl, rfl, h2⟩ := h'
  exact ⟨At, h1, h2⟩

theorem two_row1 : ∃ GT Bt At, Row (intSys 2 twoG d) (fun _ m => twoG m) twoDC (1 / 2) 1 GT Bt At :=
  ⟨_, _, _, int_row (M := 2) (d := d) (γ := twoG) (dc := twoDC) (k := 1) (φ := 1 / 2)
    (fun m t => twoG m * (min t 1 - 1 / 2)) (fun _ => continuous_const.mul ramp_cont) (fun _ => by norm_num) {1} (countable_singleton 1)
    (fun m t ht => half_deriv (twoG m) rfl (Fin.le_last m) (fun t h => two_f m h) t ht) (by
      show ∫ t in (1 / 2 : ℝ)..1 / 2 + 1, (-4 * (min t 1 - 1 / 2)) * (-4 * (min t 1 - 1 / 2)) ≠ 0
      have : ∀ t : ℝ, (-4 * (min t 1 - 1 / 2)) * (-4 * (min t 1 - 1 / 2)) = 16 * (min t 1 - 1 / 2) ^ 2 := fun t => by ring
      simp only [this]
      rw [intervalIntegral.integral_const_mul, ramp_sq]
      norm_num)⟩

theorem two_global : ∃ g', GlobalControl (intSys 2 twoG d) twoDC (fun i => if i = 0 then 0 else 1 / 2) g' ∧
    ∃ GT Bt At, g' = { intSys 2 twoG d with GammaT := some GT, D := fun _ _ => 0, Bt := Bt, At := At } ∧
      (∀ n, GT 0 n = 3 / 2) ∧ (∀ l, Bt 0 l = 1) ∧ At 0 1 = 0 := by
  obtain ⟨At, h0, hAt⟩ := two_row0 (d := d)
  obtain ⟨GT1, Bt1, At1, h1⟩ := two_row1 (d := d)
  refine ⟨{ intSys 2 twoG d with GammaT := some fun i n => if i = 0 then 3 / 2 else GT1 n, D := fun _ _ => 0, Bt := fun i n => if i = 0 then 1 else Bt1 n, At := fun i n => if i = 0 then At n else At1 n }, ⟨_, rfl, rfl, le_refl _,
    fun i n => if i = 0 then 3 / 2 else GT1 n, fun i n => if i = 0 then 1 else Bt1 n, fun i n => if i = 0 then At n else At1 n,
    fun mt k hmt hk => ?_, ?_⟩, _, _, _, rfl, fun n => rfl, fun l => rfl, hAt⟩
  · have hk' : (k : ℕ) = mt := hk
    have hmt' : mt < 2 := hmt
    rcases Nat.lt_or_ge mt 1 with h | h
    · obtain rfl : mt = 0 := by omega
      obtain rfl : k = 0 := Fin.ext hk'
      exact h0
    · obtain rfl : mt = 1 := by omega
      obtain rfl : k = 1 := Fin.ext hk'
      exact h1
  · simp [Sys.new, checkGamma, checkGammaT, checkB, checkCT, checkOpt, Arr.shape0, Arr.shape1, Arr.entries, bind, Except.bind]

end Cbadc.Global
