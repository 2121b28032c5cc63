import Verif.Lemmas.FlowJoin
import Verif.Props.FilterCoefficients

/-! # Properties of the backends for the filter coefficients (C96, C97) -/

namespace Cbadc.Filter

open Matrix Set Filter.Spec Cbadc.Analog Cbadc.Control Cbadc.Estimator

variable {M : ℕ} {g : Sys ℝ} {G : ℕ → ℕ → ℝ} {dc : DC ℝ M} {eta2 : ℝ} {Vf Vb : Matrix (Fin g.N) (Fin g.N) ℝ}
  {c : Coeffs ℝ g.N M g.L}

/-- **C96** mpmath backend (the default): the coefficients sample the filters exactly when the multi-precision form of each
waveform agrees with the waveform during the period. -/
theorem C96_mpmath {T : ℝ} {dac : Fin M → Dac} (h : MpSolver g G T dac eta2 Vf Vb c) (hT : 0 ≤ T)
    (hw : ∀ m, ∀ t ∈ Ico 0 T, (dac m).mp t = (dac m).eval t) :
    SamplesForward (tempAf g eta2 Vf) (fun s t => toM g.N M G *ᵥ fun m => (dac m).eval t * s m) T c.Af c.Bf ∧
      SamplesBackward (tempAb g eta2 Vb) (fun s t => toM g.N M G *ᵥ fun m => (dac m).eval t * s m) T c.Ab c.Bb := by
  constructor
  · refine (samples_forward hT h.common.Af h.Bf).congr fun s t ht => ?_
    rw [drive_sum]
    exact congrArg _ (funext fun m => by rw [hw m t ht])
  · refine (samples_backward (w := fun m t n => G n m * (dac m).mp t) hT h.common.Ab fun m => ?_).congr fun s t ht => ?_
    · obtain ⟨ψ, h1, h2⟩ := h.Bb m
      refine ⟨ψ, h1.congr fun t _ => ?_, h2⟩
      ext n
      exact neg_mul _ _
    · rw [drive_sum]
      exact congrArg _ (funext fun m => by rw [hw m t ht])

/-- **C96** Which waveforms of the package agree with their multi-precision form: those that start at (or before) the
update, and last until the next. -/
theorem C96_mpmath_waveforms {T : ℝ} (hT : 0 < T) (d : Dac) :
    (∀ t ∈ Ico 0 T, d.mp t = d.eval t) ↔
      match d with
      | .step t0 a => a = 0 ∨ t0 ≤ 0
      | .nrz t0 t1 a => a = 0 ∨ t0 ≤ 0 ∧ T ≤ t1
      | .rc _ t0 a => a = 0 ∨ t0 ≤ 0 := by
  cases d with
  | step t0 a =>
    simp only [Dac.mp, Dac.eval]
    constructor
    · intro h
      by_contra hn
      push Not at hn
      have := h 0 ⟨le_rfl, hT⟩
      rw [if_neg (not_le.2 hn.2)] at this
      exact hn.1 this
    · rintro (rfl | h0) t ht
      · rw [ite_self]
      · rw [if_pos (h0.trans ht.1)]
  | nrz t0 t1 a =>
    simp only [Dac.mp, Dac.eval]
    constructor
    · intro h
      by_contra hn
      push Not at hn
      obtain ⟨ha, hn⟩ := hn
      by_cases h0 : t0 ≤ 0
      · have h1 := hn h0
        by_cases h2 : t1 < 0
        · have := h 0 ⟨le_rfl, hT⟩
          rw [if_neg (not_lt.2 h2.le)] at this
          exact ha this
        · have := h t1 ⟨not_lt.1 h2, h1⟩
          rw [if_neg (lt_irrefl _)] at this
          exact ha this
      · have := h 0 ⟨le_rfl, hT⟩
        rw [if_neg h0, ite_self] at this
        exact ha this
    · rintro (rfl | ⟨h0, h1⟩) t ht
      · rw [ite_self, ite_self]
      · rw [if_pos (ht.2.trans_le h1), if_pos (h0.trans ht.1)]
  | rc tau t0 a =>
    simp only [Dac.mp, Dac.eval]
    constructor
    · intro h
      by_contra hn
      push Not at hn
      have := h 0 ⟨le_rfl, hT⟩
      rw [if_pos hn.2] at this
      exact (mul_ne_zero hn.1 (Real.exp_ne_zero _)) this
    · rintro (rfl | h0) t ht
      · rw [zero_mul, ite_self]
      · rw [if_neg (not_lt.2 (h0.trans ht.1))]

theorem ex_mp (t0 : ℝ) : MpSolver (exSys 0) (fun _ _ => -1) 1 (fun _ : Fin 1 => .step t0 1) 1 1 1
    (exC 0 (-1 + Real.exp (-1)) (1 - Real.exp (-1))) := by
  refine ⟨ex_common _ _, fun m => ?_, fun m => ?_⟩
  · refine ⟨fun t _ => -1 + 1 * Real.exp (-t), (flow_decay ex_tempAf (-1) 1 0 1).congr fun t ht => ?_, by ext; simp, fun n => by simp⟩
    ext; simp [Dac.mp]
  · refine ⟨fun t _ => 1 + -1 * Real.exp (-t), (flowLeft_decay (by rw [ex_tempAb]) 1 (-1) 0 1).congr fun t ht => ?_, by ext; simp,
      fun n => by simp; ring⟩
    ext; simp [Dac.mp]

example : SamplesBackward (tempAb (exSys 0) 1 1) (fun s t => toM 1 1 (fun _ _ => -1) *ᵥ fun m => (Dac.step 0 1).eval t * s m) 1
    (exC 0 (-1 + Real.exp (-1)) (1 - Real.exp (-1))).Ab (fun _ _ => 1 - Real.exp (-1)) :=
  (C96_mpmath (ex_mp 0) zero_le_one fun _ t ht => by simp [Dac.mp, Dac.eval, ht.1]).2

/-- **C96** With the default backend and a step that starts between two updates (which the control accepts), the
coefficients are those of a step that starts at the update. -/
theorem C96_mpmath_false : ∃ (g : Sys ℝ) (G : ℕ → ℕ → ℝ) (dac : Fin 1 → Dac) (Vf Vb : Matrix (Fin g.N) (Fin g.N) ℝ)
    (c : Coeffs ℝ g.N 1 g.L), Cares g 1 Vf Vb ∧ MpSolver g G 1 dac 1 Vf Vb c ∧
      (∃ dc, DC.new (1 : ℝ) 0 1 (some [(dac 0).ir]) 0 none = .ok dc) ∧
      ¬ SamplesForward (tempAf g 1 Vf) (fun s t => toM g.N 1 G *ᵥ fun m => (dac m).eval t * s m) 1 c.Af c.Bf := by
  refine ⟨exSys 0, fun _ _ => -1, fun _ => .step 2⁻¹ 1, 1, 1, _, ex_cares, ex_mp 2⁻¹, ?_, fun h => ?_⟩
  · refine ⟨⟨1, 0, 0, fun m => [(Dac.step 2⁻¹ 1).ir].get (m.cast rfl), fun _ => 0⟩, ?_⟩
    have hb : badPhases (1 : ℝ) [(2⁻¹ : ℝ)] = false := by
      simp [badPhases, anyDecrease]
      norm_num
    have hi : initIR (1 : ℝ) 1 (some [(Dac.step 2⁻¹ 1).ir]) = .ok fun m => [(Dac.step 2⁻¹ 1).ir].get (m.cast rfl) := by
      unfold initIR
      show (if badPhases (1 : ℝ) [(2⁻¹ : ℝ)] then _ else _) = _
      rw [hb]
      rfl
    unfold DC.new
    rw [if_neg (by norm_num), hi]
    rfl
  · have h1 := h (fun _ => 1) _ ((flow_two ex_tempAf 0 (-1) 0 2⁻¹ 1).congr fun t ht => ?_)
    · have h2 := congrFun h1 0
      obtain ⟨p, q, r, e⟩ := ex_half
      simp [Matrix.mulVec, dotProduct] at h2
      rw [if_neg (by norm_num), r] at h2
      have h3 : Real.exp (-2⁻¹) = Real.exp (-2⁻¹) * Real.exp (-2⁻¹) := by
        linear_combination h2 - Real.exp (-2⁻¹) * e
      nlinarith
    · refine Eq.trans ?_ (ex_drive _).symm
      ext i
      by_cases hlt : t < 2⁻¹
      · simp [Dac.eval, hlt, not_le.2 hlt]
      · simp [Dac.eval, hlt, not_lt.1 hlt]

theorem sym_continuous (d : Dac) : Continuous d.sym := by
  cases d with
  | step => exact continuous_const
  | nrz => exact continuous_const
  | rc tau t0 a => exact continuous_const.mul (Real.continuous_exp.comp ((continuous_const.sub continuous_id).div_const _))

/-- **C96** sympy backend, forward filter: exact for every waveform that vanishes before its start time and is given by its
symbolic form afterwards. -/
theorem C96_sympy_forward {T : ℝ} {dac : Fin M → Dac} (h : SymSolver g G T dac eta2 Vf Vb c)
    (ht : ∀ m, 0 ≤ (dac m).t0 ∧ (dac m).t0 ≤ T) (hT : 0 ≤ T)
    (hw : ∀ m, ∀ t ∈ Ico 0 T, (dac m).eval t = if t < (dac m).t0 then 0 else (dac m).sym t) :
    SamplesForward (tempAf g eta2 Vf) (fun s t => toM g.N M G *ᵥ fun m => (dac m).eval t * s m) T c.Af c.Bf := by
  refine (samples_forward (w := fun m t n => G n m * (dac m).eval t) hT h.common.Af fun m => ?_).congr fun s t ht => (drive_sum G s _).symm
  obtain ⟨ψ, h1, h2, h3⟩ := h.Bf m
  refine ⟨_, Spec.Flow.glue (c := (dac m).t0) ((flow_zero).congr fun t ht' => ?_) (h1.congr fun t ht' => ?_) h2.symm, ?_, fun n => ?_⟩
  · ext n
    rw [hw m t ⟨ht'.1, ht'.2.trans_le (ht m).2⟩, if_pos ht'.2, mul_zero]
    rfl
  · ext n
    rw [hw m t ⟨(ht m).1.trans ht'.1, ht'.2⟩, if_neg (not_lt.2 ht'.1)]
  · by_cases h0 : 0 < (dac m).t0
    · exact if_pos h0
    · have : (dac m).t0 = 0 := le_antisymm (not_lt.1 h0) (ht m).1
      simp only [this, lt_irrefl, if_false] at h2 ⊢
      exact h2
  · rw [h3 n]
    exact (congrFun (if_neg (not_lt.2 (ht m).2)) n).symm

/-- **C96** Which waveforms of the package meet the condition of `C96_sympy_forward`: all but those that end before the
next update. -/
theorem C96_sympy_waveforms {T : ℝ} (hT : 0 < T) (d : Dac) :
    (∀ t ∈ Ico 0 T, d.eval t = if t < d.t0 then 0 else d.sym t) ↔
      match d with
      | .nrz t0 t1 a => a = 0 ∨ T ≤ max t0 t1
      | _ => True := by
  cases d with
  | step t0 a =>
    refine iff_of_true (fun t _ => ?_) trivial
    change (if t0 ≤ t then a else 0) = if t < t0 then 0 else a
    by_cases h : t < t0
    · rw [if_pos h, if_neg (not_le.2 h)]
    · rw [if_neg h, if_pos (not_lt.1 h)]
  | nrz t0 t1 a =>
    change (∀ t ∈ Ico 0 T, (if t < t1 then (if t0 ≤ t then a else 0) else 0) = if t < t0 then 0 else a) ↔ _
    constructor
    · intro h
      by_contra hn
      push Not at hn
      obtain ⟨ha, hn⟩ := hn
      have := h (max 0 (max t0 t1)) ⟨le_max_left _ _, max_lt hT hn⟩
      rw [if_neg (not_lt.2 ((le_max_right t0 t1).trans (le_max_right 0 _))),
        if_neg (not_lt.2 ((le_max_left t0 t1).trans (le_max_right 0 _)))] at this
      exact ha this.symm
    · rintro (rfl | h) t ht
      · simp
      · by_cases h0 : t < t0
        · rw [if_pos h0, if_neg (not_le.2 h0), ite_self]
        · have h1 : t < t1 := by
            rcases lt_max_iff.1 (ht.2.trans_le h) with h | h
            · exact absurd h h0
            · exact h
          rw [if_neg h0, if_pos h1, if_pos (not_lt.1 h0)]
  | rc tau t0 a => exact iff_of_true (fun t _ => rfl) trivial

/-- **C96** sympy backend, backward filter: exact for waveforms that start at the update and are the same read backwards. -/
theorem C96_sympy_backward_partial {T : ℝ} {dac : Fin M → Dac} (h : SymSolver g G T dac eta2 Vf Vb c)
    (ht : ∀ m, (dac m).t0 = 0) (hT : 0 ≤ T) (hw : ∀ m, ∀ t ∈ Ico 0 T, (dac m).eval t = (dac m).sym t)
    (hs : ∀ m, ∀ t ∈ Ioc 0 T, (dac m).sym (T - t) = (dac m).sym t) :
    SamplesBackward (tempAb g eta2 Vb) (fun s t => toM g.N M G *ᵥ fun m => (dac m).eval t * s m) T c.Ab c.Bb := by
  refine (samples_backward (w := fun m t n => G n m * (dac m).eval t) hT h.common.Ab fun m => ?_).congr fun s t ht => (drive_sum G s _).symm
  obtain ⟨ψ, h1, h2, h3⟩ := h.Bb m
  rw [ht m] at h1 h2
  refine ⟨ψ, (h1.left hT ?_).congr fun t ht' => ?_, h2, h3⟩
  · exact (continuous_pi fun n => continuous_const.mul (sym_continuous (dac m))).continuousOn
  · ext n
    show -G n m * (dac m).sym t = -(G n m * (dac m).eval (T - t))
    rw [hw m (T - t) ⟨by linarith [ht'.2], by linarith [ht'.1]⟩, hs m t ht', neg_mul]

/-- the symbolic coefficients of the integrator with a constant waveform -/
theorem ex_sym : SymSolver (exSys 0) (fun _ _ => -1) 1 (fun _ : Fin 1 => .step 0 1) 1 1 1
    (exC 0 (-1 + Real.exp (-1)) (1 - Real.exp (-1))) := by
  refine ⟨ex_common _ _, fun m => ?_, fun m => ?_⟩
  · refine ⟨fun t _ => -1 + 1 * Real.exp (-t), (flow_decay ex_tempAf (-1) 1 0 1).congr fun t ht => ?_, by ext; simp [Dac.t0], fun n => by simp⟩
    ext; simp [Dac.sym]
  · refine ⟨fun t _ => 1 + -1 * Real.exp (-t), (flow_decay (by rw [ex_tempAb]) 1 (-1) 0 1).congr fun t ht => ?_, by ext; simp [Dac.t0],
      fun n => by simp; ring⟩
    ext; simp [Dac.sym]

example : SamplesForward (tempAf (exSys 0) 1 1) (fun s t => toM 1 1 (fun _ _ => -1) *ᵥ fun m => (Dac.step 0 1).eval t * s m) 1
    (exC 0 (-1 + Real.exp (-1)) (1 - Real.exp (-1))).Af (fun _ _ => -1 + Real.exp (-1)) :=
  C96_sympy_forward ex_sym (fun _ => ⟨le_rfl, zero_le_one⟩) zero_le_one fun _ t ht => by
    simp [Dac.sym, Dac.eval, Dac.t0, ht.1, not_lt.2 ht.1]

example : SamplesBackward (tempAb (exSys 0) 1 1) (fun s t => toM 1 1 (fun _ _ => -1) *ᵥ fun m => (Dac.step 0 1).eval t * s m) 1
    (exC 0 (-1 + Real.exp (-1)) (1 - Real.exp (-1))).Ab (fun _ _ => 1 - Real.exp (-1)) :=
  C96_sympy_backward_partial ex_sym (fun _ => rfl) zero_le_one (fun _ t ht => by simp [Dac.sym, Dac.eval, ht.1]) fun _ _ _ => rfl

theorem hasDerivAt_resonance (c t : ℝ) : HasDerivAt (fun t => c * (t * Real.exp (-t))) (-(c * (t * Real.exp (-t))) + c * Real.exp (-t)) t := by
  have h := ((hasDerivAt_id t).mul ((hasDerivAt_id t).neg.exp)).const_mul c
  refine h.congr_deriv ?_
  simp
  ring

theorem flow_resonance {X : Matrix (Fin 1) (Fin 1) ℝ} (hX : X = -1) (c s e : ℝ) :
    Flow X (fun t _ => c * Real.exp (-t)) s e (fun t _ => c * (t * Real.exp (-t))) := by
  refine flow_scalar (fun t _ => (hasDerivAt_resonance c t).continuousAt.continuousWithinAt) fun t _ => ?_
  refine (hasDerivAt_resonance c t).hasDerivWithinAt.congr_deriv ?_
  rw [hX]
  simp

/-- the symbolic coefficients of the integrator with a decaying waveform -/
theorem ex_sym_rc : SymSolver (exSys 0) (fun _ _ => -1) 1 (fun _ : Fin 1 => .rc 1 0 1) 1 1 1
    (exC 0 (-Real.exp (-1)) (Real.exp (-1))) := by
  refine ⟨ex_common _ _, fun m => ?_, fun m => ?_⟩
  · refine ⟨_, (flow_resonance ex_tempAf (-1) 0 1).congr fun t ht => ?_, by ext; simp [Dac.t0], fun n => by simp⟩
    ext; simp [Dac.sym]
  · refine ⟨_, (flow_resonance (by rw [ex_tempAb]) 1 0 1).congr fun t ht => ?_, by ext; simp [Dac.t0], fun n => by simp⟩
    ext; simp [Dac.sym]

theorem flow_grow {X : Matrix (Fin 1) (Fin 1) ℝ} (hX : X = 1) (b s e : ℝ) :
    Flow X (fun t _ => -Real.exp (-t)) s e (fun t _ => Real.exp (-t) / 2 + b * Real.exp t) := by
  have hd : ∀ t, HasDerivAt (fun t => Real.exp (-t) / 2 + b * Real.exp t) ((Real.exp (-t) / 2 + b * Real.exp t) + -Real.exp (-t)) t := by
    intro t
    have h := (((hasDerivAt_id t).neg.exp).div_const 2).add ((Real.hasDerivAt_exp t).const_mul b)
    refine h.congr_deriv ?_
    simp
    ring
  refine flow_scalar (fun t _ => (hd t).continuousAt.continuousWithinAt) fun t _ => ?_
  refine (hd t).hasDerivWithinAt.congr_deriv ?_
  rw [hX]
  simp

theorem exp_bound : Real.exp (-1) * Real.exp (-1) + 2 * Real.exp (-1) < 1 := by
  have h1 : (1 + 1 / 4 : ℝ) ≤ Real.exp (1 / 4) := by
    have := Real.add_one_le_exp (1 / 4 : ℝ)
    linarith
  have h2 : Real.exp (1 / 4) ^ 4 * Real.exp (-1) = 1 := by
    rw [← Real.exp_nat_mul, ← Real.exp_add]
    norm_num
  have h3 : (1 + 1 / 4 : ℝ) ^ 4 ≤ Real.exp (1 / 4) ^ 4 := pow_le_pow_left₀ (by norm_num) h1 4
  have h4 := Real.exp_pos (-1)
  have h5 : Real.exp (-1) ≤ 256 / 625 := by nlinarith
  nlinarith

/-- **C96** With the symbolic backend and a decaying waveform, the backward filter is driven by the waveform in the wrong
direction of time. -/
theorem C96_sympy_false : ∃ (g : Sys ℝ) (G : ℕ → ℕ → ℝ) (dac : Fin 1 → Dac) (Vf Vb : Matrix (Fin g.N) (Fin g.N) ℝ)
    (c : Coeffs ℝ g.N 1 g.L), Cares g 1 Vf Vb ∧ SymSolver g G 1 dac 1 Vf Vb c ∧ (∀ m, (dac m).t0 = 0) ∧
      ¬ SamplesBackward (tempAb g 1 Vb) (fun s t => toM g.N 1 G *ᵥ fun m => (dac m).eval t * s m) 1 c.Ab c.Bb := by
  refine ⟨exSys 0, fun _ _ => -1, fun _ => .rc 1 0 1, 1, 1, _, ex_cares, ex_sym_rc, fun _ => rfl, fun h => ?_⟩
  have h1 := h (fun _ => 1) _ ((flow_grow ex_tempAb (-(Real.exp (-1) * Real.exp (-1)) / 2) 0 1).congr fun t ht => ?_)
  · have h2 := congrFun h1 0
    have e : Real.exp 1 * Real.exp (-1) = 1 := by rw [← Real.exp_add]; norm_num
    simp [Matrix.mulVec, dotProduct] at h2
    have b := exp_bound
    have h3 : Real.exp (-1) / 2 + -(Real.exp (-1) * Real.exp (-1)) / 2 * Real.exp 1 = 0 := by
      linear_combination -(Real.exp (-1) / 2) * e
    rw [h3, mul_zero] at h2
    linarith
  · refine Eq.trans ?_ (ex_drive _).symm
    ext i
    simp [Dac.eval, not_lt.2 ht.1]

/-! ### C97 -/

/-- **C97** `mid_point=True` (numpy backend): for waveforms that are constant during the period, the forward filter is
the exact one. -/
theorem C97_forward (h : NumericalMid g G dc eta2 Vf Vb c) (hT : 0 ≤ dc.T)
    (hw : ∀ m, ∀ t ∈ Ico 0 dc.T, (dc.ir m).f t = (dc.ir m).f 0) :
    SamplesForward (tempAf g eta2 Vf) (fun s t => toM g.N M G *ᵥ fun m => (dc.ir m).f t * s m) dc.T c.Af c.Bf := by
  refine (samples_forward (w := fun m t n => G n m * (dc.ir m).f t) hT h.common.Af fun m => ?_).congr fun s t ht => (drive_sum G s _).symm
  obtain ⟨B, hB, hBf⟩ := h.mid.Bf
  obtain ⟨ψ, h1, h2, h3⟩ := hB m
  have hq : ∀ t ∈ Ico 0 dc.T, toM g.N M G *ᵥ impulseResponse dc m t = fun n : Fin g.N => G n m * (dc.ir m).f 0 := by
    intro t ht
    ext n
    rw [Matrix.mulVec, dotProduct, Finset.sum_eq_single m]
    · rw [impulseResponse, if_pos ⟨rfl, ht.1, ht.2.le⟩, hw m t ht]
      rfl
    · intro i _ hi
      rw [impulseResponse, if_neg fun h => hi h.1, mul_zero]
    · exact fun h => absurd (Finset.mem_univ _) h
  have hw' : ∀ t ∈ Ico 0 dc.T, (fun n : Fin g.N => G n m * (dc.ir m).f 0) = fun n : Fin g.N => G n m * (dc.ir m).f t := by
    intro t ht
    rw [hw m t ht]
  have h4 : Flow (tempAf g eta2 Vf) (fun t (n : Fin g.N) => G n m * (dc.ir m).f 0) 0 (dc.T / 2) ψ :=
    h1.congr fun t ht => hq t ⟨ht.1, by linarith [ht.2]⟩
  have h5 := ((h4.add (flow_exp _ (ψ (dc.T / 2)) 0 (dc.T / 2))).shift (dc.T / 2)).congr
    (w := fun t (n : Fin g.N) => G n m * (dc.ir m).f 0) fun t _ => add_zero _
  rw [zero_add, add_halves] at h5
  have h6 := Spec.Flow.glue h4 h5 (by rw [sub_self, h2, exp_zero_smul, one_mulVec, zero_add])
  refine ⟨_, h6.congr hw', ?_, fun n => ?_⟩
  · by_cases h0 : 0 < dc.T / 2
    · rw [if_pos h0]; exact h2
    · have : dc.T / 2 = 0 := le_antisymm (not_lt.1 h0) (by linarith)
      rw [if_neg h0, this, sub_self, h2, exp_zero_smul, one_mulVec, add_zero]
  · rw [if_neg (by linarith), hBf, show dc.T - dc.T / 2 = dc.T / 2 by ring]
    rw [Matrix.add_mul, Matrix.one_mul, Matrix.add_apply, h3 n, Matrix.mul_apply]
    refine congrArg (ψ (dc.T / 2) n + ·) (Finset.sum_congr rfl fun k _ => ?_)
    rw [h3 k]

/-- matrices with one entry -/
theorem exp_mat1 (a : ℝ) : NormedSpace.exp (a • (1 : Matrix (Fin 1) (Fin 1) ℝ)) = Matrix.of fun _ _ => Real.exp a := by
  have e : a • (1 : Matrix (Fin 1) (Fin 1) ℝ) = diagonal fun _ => a := by
    ext i j
    simp [Subsingleton.elim i j]
  rw [e, Matrix.exp_diagonal]
  ext i j
  rw [Subsingleton.elim i j, diagonal_apply_eq, Pi.coe_exp, of_apply, Real.exp_eq_exp_ℝ]

/-- the coefficients of the integrator with the mid-point rule -/
theorem ex_mid : NumericalMid (exSys 0) (fun _ _ => -1) (exDC 0 (.step 0 1)) 1 1 1
    (exC 0 (-1 + Real.exp (-1)) (Real.exp 2⁻¹ - Real.exp (-2⁻¹))) := by
  have hir : ∀ t ∈ Icc (0 : ℝ) 1, impulseResponse (exDC 0 (.step 0 1)) 0 t 0 = 1 := by
    intro t ht
    simp [impulseResponse, Dac.ir, Dac.eval, ht.1, ht.2]
  obtain ⟨p, q, r, e⟩ := ex_half
  have hT : (exDC 0 (.step 0 1)).T / 2 = 2⁻¹ := by norm_num
  refine ⟨ex_cares, ex_common _ _, ⟨fun _ _ => -1 + Real.exp (-2⁻¹), ?_, ?_⟩, ⟨fun _ _ => 1 - Real.exp (-2⁻¹), ?_, ?_⟩⟩
  · intro m
    obtain rfl : m = 0 := Subsingleton.elim _ _
    rw [hT]
    refine ⟨fun t _ => -1 + 1 * Real.exp (-t), (flow_decay ex_tempAf (-1) 1 0 _).congr fun t ht => ?_, by ext; simp, fun n => by simp⟩
    have := ht.2
    rw [ex_drive, hir t ⟨ht.1, by norm_num at this ⊢; linarith⟩]
  · refine mat1_ext ?_
    rw [hT, ex_tempAf, smul_neg, ← neg_smul]
    refine Eq.trans ?_ (congrFun (congrFun (congrArg (fun Y : Matrix (Fin 1) (Fin 1) ℝ => (1 + Y) * (Matrix.of fun _ _ => -1 + Real.exp (-2⁻¹) : Matrix (Fin 1) (Fin 1) ℝ)) (exp_mat1 (-2⁻¹))) 0) 0).symm
    simp [Matrix.mul_apply]
    rw [r]
    ring
  · intro m
    obtain rfl : m = 0 := Subsingleton.elim _ _
    rw [hT]
    refine ⟨fun t _ => 1 + -1 * Real.exp (-t), (flowLeft_decay (by rw [ex_tempAb]) 1 (-1) 0 _).congr fun t ht => ?_, by ext; simp,
      fun n => by simp; ring⟩
    have := ht.2
    have := ht.1
    rw [ex_drive, hir (1 - t) ⟨by norm_num at *; linarith, by linarith [ht.1]⟩]
    ext; simp
  · refine mat1_ext ?_
    rw [hT, ex_tempAb]
    refine Eq.trans ?_ (congrFun (congrFun (congrArg (fun Y : Matrix (Fin 1) (Fin 1) ℝ => (1 + Y) * (Matrix.of fun _ _ => 1 - Real.exp (-2⁻¹) : Matrix (Fin 1) (Fin 1) ℝ)) (exp_mat1 2⁻¹)) 0) 0).symm
    simp [Matrix.mul_apply]
    linear_combination e

example : SamplesForward (tempAf (exSys 0) 1 1) (fun s t => toM 1 1 (fun _ _ => -1) *ᵥ fun m => ((exDC 0 (.step 0 1)).ir m).f t * s m) 1
    (exC 0 (-1 + Real.exp (-1)) (Real.exp 2⁻¹ - Real.exp (-2⁻¹))).Af fun _ _ => -1 + Real.exp (-1) :=
  C97_forward ex_mid zero_le_one fun _ t ht => by simp [Dac.ir, Dac.eval, ht.1]

theorem flow_const_grow {X : Matrix (Fin 1) (Fin 1) ℝ} (hX : X = 1) (a b s e : ℝ) :
    Flow X (fun _ _ => -a) s e (fun t _ => a + b * Real.exp t) := by
  have hd : ∀ t, HasDerivAt (fun t => a + b * Real.exp t) ((a + b * Real.exp t) + -a) t := by
    intro t
    refine (((Real.hasDerivAt_exp t).const_mul b).const_add a).congr_deriv ?_
    ring
  refine flow_scalar (fun t _ => (hd t).continuousAt.continuousWithinAt) fun t _ => ?_
  refine (hd t).hasDerivWithinAt.congr_deriv ?_
  rw [hX]
  simp

theorem mid_ne {z y : ℝ} (p : 0 < z) (q : z < 1) (e : y * z = 1) : ¬ 1 - z * z = y - z := by
  intro h
  have h4 : (1 - z * z) * (1 - z) = 0 := by linear_combination -e - z * h
  have h5 : 0 < 1 - z * z := by nlinarith
  have h6 : 0 < 1 - z := by linarith
  exact absurd h4 (mul_pos h5 h6).ne'

/-- **C97** The backward filter of the mid-point rule is not the exact one, even for a constant waveform. -/
theorem C97_backward_false : ∃ (g : Sys ℝ) (G : ℕ → ℕ → ℝ) (dc : DC ℝ 1) (Vf Vb : Matrix (Fin g.N) (Fin g.N) ℝ)
    (c : Coeffs ℝ g.N 1 g.L), NumericalMid g G dc 1 Vf Vb c ∧ (∀ m, ∀ t ∈ Ico 0 dc.T, (dc.ir m).f t = (dc.ir m).f 0) ∧
      ¬ SamplesBackward (tempAb g 1 Vb) (fun s t => toM g.N 1 G *ᵥ fun m => (dc.ir m).f t * s m) dc.T c.Ab c.Bb := by
  refine ⟨exSys 0, fun _ _ => -1, exDC 0 (.step 0 1), 1, 1, _, ex_mid, fun _ t ht => by simp [Dac.ir, Dac.eval, ht.1], fun h => ?_⟩
  have h1 := h (fun _ => 1) _ ((flow_const_grow ex_tempAb 1 (-Real.exp (-1)) 0 1).congr fun t ht => ?_)
  · have h2 := congrFun h1 0
    have e1 : Real.exp 1 * Real.exp (-1) = 1 := by rw [← Real.exp_add]; norm_num
    obtain ⟨p, q, r, e⟩ := ex_half
    simp [Matrix.mulVec, dotProduct] at h2
    have h3 : 1 + -(Real.exp (-1) * Real.exp 1) = 0 := by linear_combination -e1
    rw [h3, mul_zero, r] at h2
    exact mid_ne p q e (by linarith)
  · refine Eq.trans ?_ (ex_drive _).symm
    ext i
    simp [Dac.ir, Dac.eval, ht.1]

/-- **C97** The effect of `mid_point=True` depends on the backend: with the default backend the option changes nothing, and
with the numpy backend the coefficients are others. -/
theorem C97_backends_false : ∃ (g : Sys ℝ) (G : ℕ → ℕ → ℝ) (dc : DC ℝ 1) (dac : Fin 1 → Dac) (Vf Vb : Matrix (Fin g.N) (Fin g.N) ℝ)
    (c c' : Coeffs ℝ g.N 1 g.L), (∀ m, dc.ir m = (dac m).ir) ∧ Computed .mpmath true g G dc dac 1 Vf Vb c ∧
      Computed .mpmath false g G dc dac 1 Vf Vb c ∧ Computed .numpy true g G dc dac 1 Vf Vb c' ∧ c.Bb ≠ c'.Bb := by
  refine ⟨exSys 0, fun _ _ => -1, exDC 0 (.step 0 1), fun _ => .step 0 1, 1, 1, _, _, fun _ => rfl, ⟨ex_cares, ex_mp 0⟩, ⟨ex_cares, ex_mp 0⟩,
    ⟨ex_cares, ex_mid⟩, fun h => ?_⟩
  have h2 : 1 - Real.exp (-1) = Real.exp 2⁻¹ - Real.exp (-2⁻¹) := congrFun (congrFun h (0 : Fin 1)) 0
  obtain ⟨p, q, r, e⟩ := ex_half
  rw [r] at h2
  exact mid_ne p q e h2

/-- `C96_sympy_waveforms` for a step and for a pulse of half a period, which is not what the symbolic backend uses. -/
example : (∀ t ∈ Ico (0 : ℝ) 1, (Dac.step 0 1).eval t = if t < (Dac.step 0 1).t0 then 0 else (Dac.step 0 1).sym t) ∧
    ¬ ∀ t ∈ Ico (0 : ℝ) 1, (Dac.nrz 0 (1 / 2) 2).eval t = if t < (Dac.nrz 0 (1 / 2) 2).t0 then 0 else (Dac.nrz 0 (1 / 2) 2).sym t := by
  refine ⟨(C96_sympy_waveforms one_pos _).2 trivial, fun h => ?_⟩
  have := (C96_sympy_waveforms one_pos _).1 h
  norm_num at this


end Cbadc.Filter
