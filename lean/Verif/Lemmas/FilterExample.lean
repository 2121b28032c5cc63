import Mathlib.LinearAlgebra.Matrix.Notation
import Mathlib.Tactic.FinCases
import Mathlib.Tactic.NormNum
import Mathlib.Analysis.SpecialFunctions.ExpDeriv
import Verif.Lemmas.LeastSquares

/-! # A concrete system with its filters -/

namespace Cbadc.Filter

open Matrix Set Filter.Spec Cbadc.Analog Cbadc.Control Cbadc.Estimator

/-- An integrator whose state is observed: `x' = u - s` (an example, as in
`src/cbadc/analog_system/chain_of_integrators.py`). -/
noncomputable abbrev exSys (d : ℝ) : Sys ℝ where
  N := 1
  L := 1
  M := 1
  Mt := 1
  Nt := 1
  A := fun _ _ => 0
  B := fun _ _ => 1
  CT := fun _ _ => 1
  Gamma := some fun _ _ => -1
  GammaT := some fun _ _ => 1
  D := fun _ _ => d
  Bt := fun _ _ => 0
  At := fun _ _ => 0

/-- A control with period one and a given waveform (an example of
`src/cbadc/digital_control/digital_control.py:56-85`). -/
noncomputable abbrev exDC (tDelay : ℝ) (d : Dac) : DC ℝ 1 := ⟨1, 0, tDelay, fun _ => d.ir, fun _ => 0⟩

variable {d : ℝ}

/-- Coefficients of the integrator for `eta2 = 1` (an example of the results of
`src/cbadc/digital_estimator/_filter_coefficients.py:167-197`). -/
noncomputable abbrev exC (d bf bb : ℝ) : Coeffs ℝ (exSys d).N 1 (exSys d).L :=
  ⟨NormedSpace.exp ((1 : ℝ) • tempAf (exSys d) 1 1), NormedSpace.exp ((1 : ℝ) • -tempAb (exSys d) 1 1), fun _ _ => bf, fun _ _ => bb,
    fun _ _ => 1 / 2⟩

theorem mat1_ext {X Y : Matrix (Fin 1) (Fin 1) ℝ} (h : X 0 0 = Y 0 0) : X = Y := by
  ext i j
  fin_cases i; fin_cases j
  exact h

theorem ex_cct : cct (exSys d) 1 = 1 := by
  rw [cct_eq one_ne_zero]
  exact mat1_ext (by simp [Matrix.mul_apply, toM])

theorem ex_A : toM (exSys d).N (exSys d).N (exSys d).A = 0 := by ext; rfl

theorem ex_tempAf : tempAf (exSys d) 1 1 = -1 := by rw [tempAf, ex_cct, ex_A, Matrix.mul_one, zero_sub]

theorem ex_tempAb : tempAb (exSys d) 1 1 = 1 := by rw [tempAb, ex_cct, ex_A, Matrix.mul_one, zero_add]

theorem ex_cares : Cares (exSys d) 1 1 1 := by
  have hQ : careQ (exSys d) = 1 := mat1_ext (by simp [careQ, Matrix.mul_apply, toM])
  have hA : careA (exSys d) = 0 := by rw [careA, ex_A, transpose_zero]
  have hS : careB (exSys d) * (careR (exSys d) 1)⁻¹ * (careB (exSys d))ᵀ = 1 := by
    have := ex_cct (d := d)
    rw [cct] at this
    rw [careB, transpose_transpose, Matrix.mul_assoc]
    exact this
  have h : (1 : Matrix (Fin (exSys d).N) (Fin (exSys d).N) ℝ) * careB (exSys d) * (careR (exSys d) 1)⁻¹ * (careB (exSys d))ᵀ * 1 = 1 := by
    rw [Matrix.mul_one, Matrix.one_mul, hS]
  constructor
  · refine ⟨?_, transpose_one⟩
    rw [h, hQ, hA, transpose_zero]
    simp
  · refine ⟨?_, transpose_one⟩
    rw [h, hQ, hA, neg_zero, transpose_zero]
    simp

theorem ex_common (bf bb : ℝ) : Common (exSys d) 1 1 1 1 (exC d bf bb) := by
  refine ⟨rfl, rfl, ?_⟩
  have e : ((1 : Matrix (Fin (exSys d).N) (Fin (exSys d).N) ℝ) + 1) * (exC d bf bb).WTᵀ - toM (exSys d).N (exSys d).L (exSys d).B = 0 := by
    refine mat1_ext ?_
    simp only [Matrix.add_mul, Matrix.one_mul]
    show (1 / 2 : ℝ) + 1 / 2 - 1 = 0
    norm_num
  rw [e, Matrix.mul_zero]

/-- A function of one variable as a vector with one entry. -/
theorem flow_scalar {X : Matrix (Fin 1) (Fin 1) ℝ} {v y : ℝ → ℝ} {a b : ℝ} (hc : ContinuousOn y (Icc a b))
    (hd : ∀ t ∈ Ico a b, HasDerivWithinAt y (X 0 0 * y t + v t) (Ici t) t) : Flow X (fun t _ => v t) a b (fun t _ => y t) := by
  refine ⟨continuousOn_pi.2 fun _ => hc, fun t ht => hasDerivWithinAt_pi.2 fun i => ?_⟩
  obtain rfl : i = 0 := Subsingleton.elim _ _
  refine (hd t ht).congr_deriv ?_
  simp [Matrix.mulVec, dotProduct]

theorem flowLeft_scalar {X : Matrix (Fin 1) (Fin 1) ℝ} {v y : ℝ → ℝ} {a b : ℝ} (hc : ContinuousOn y (Icc a b))
    (hd : ∀ t ∈ Ioc a b, HasDerivWithinAt y (X 0 0 * y t + v t) (Iic t) t) : FlowLeft X (fun t _ => v t) a b (fun t _ => y t) := by
  refine ⟨continuousOn_pi.2 fun _ => hc, fun t ht => hasDerivWithinAt_pi.2 fun i => ?_⟩
  obtain rfl : i = 0 := Subsingleton.elim _ _
  refine (hd t ht).congr_deriv ?_
  simp [Matrix.mulVec, dotProduct]

theorem hasDerivAt_decay (a b t : ℝ) : HasDerivAt (fun t => a + b * Real.exp (-t)) (-(a + b * Real.exp (-t)) + a) t := by
  have h := (((hasDerivAt_id t).neg.exp).const_mul b).const_add a
  refine h.congr_deriv ?_
  simp

/-- exponential settling under a constant drive -/
theorem flow_decay {X : Matrix (Fin 1) (Fin 1) ℝ} (hX : X = -1) (a b s e : ℝ) :
    Flow X (fun _ _ => a) s e (fun t _ => a + b * Real.exp (-t)) := by
  refine flow_scalar (fun t _ => (hasDerivAt_decay a b t).continuousAt.continuousWithinAt) fun t _ => ?_
  refine (hasDerivAt_decay a b t).hasDerivWithinAt.congr_deriv ?_
  rw [hX]
  simp

theorem flowLeft_decay {X : Matrix (Fin 1) (Fin 1) ℝ} (hX : X = -1) (a b s e : ℝ) :
    FlowLeft X (fun _ _ => a) s e (fun t _ => a + b * Real.exp (-t)) := by
  refine flowLeft_scalar (fun t _ => (hasDerivAt_decay a b t).continuousAt.continuousWithinAt) fun t _ => ?_
  refine (hasDerivAt_decay a b t).hasDerivWithinAt.congr_deriv ?_
  rw [hX]
  simp

theorem Spec.FlowLeft.congr {N : ℕ} {X : Matrix (Fin N) (Fin N) ℝ} {v w : ℝ → Fin N → ℝ} {a b : ℝ} {x : ℝ → Fin N → ℝ}
    (h : FlowLeft X v a b x) (hv : ∀ t ∈ Ioc a b, v t = w t) : FlowLeft X w a b x :=
  ⟨h.cont, fun t ht => by rw [← hv t ht]; exact h.ode t ht⟩

theorem ex_drive (v : Fin 1 → ℝ) : toM 1 1 (fun _ _ => (-1 : ℝ)) *ᵥ v = fun _ => -v 0 := by
  ext i
  simp [Matrix.mulVec, dotProduct, toM]

/-- the numerical coefficients of the integrator with a constant waveform -/
theorem ex_numerical (tDelay : ℝ) : Numerical (exSys d) (fun _ _ => -1) (exDC tDelay (.step 0 1)) 1 1 1
    (exC d (-1 + Real.exp (-1)) (1 - Real.exp (-1))) := by
  have hir : ∀ t ∈ Icc (0 : ℝ) 1, impulseResponse (exDC tDelay (.step 0 1)) 0 t 0 = 1 := by
    intro t ht
    simp [impulseResponse, Dac.ir, Dac.eval, ht.1, ht.2]
  refine ⟨ex_cares, ex_common _ _, ?_, ?_⟩
  · intro m
    obtain rfl : m = 0 := Subsingleton.elim _ _
    refine ⟨fun t _ => -1 + 1 * Real.exp (-t), (flow_decay ex_tempAf (-1) 1 0 1).congr fun t ht => ?_, by ext; simp, fun n => by simp⟩
    rw [ex_drive, hir t ⟨ht.1, ht.2.le⟩]
  · intro m
    obtain rfl : m = 0 := Subsingleton.elim _ _
    refine ⟨fun t _ => 1 + -1 * Real.exp (-t), (flowLeft_decay (by rw [ex_tempAb]) 1 (-1) 0 1).congr fun t ht => ?_, by ext; simp,
      fun n => by simp; ring⟩
    rw [ex_drive, hir (1 - t) ⟨by linarith [ht.2], by linarith [ht.1]⟩]
    ext; simp

end Cbadc.Filter
