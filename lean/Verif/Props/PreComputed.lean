import Verif.Props.Simulator
import Mathlib.LinearAlgebra.Matrix.NonsingularInverse

/-! # C29: whole runs of the pre-computing simulator, and counterexamples -/

namespace Cbadc.Simulate
open Cbadc.Analog Cbadc.Control Set Finset

/-- the control update only looks at the states of the system -/
theorem decide_congr {M : ℕ} (cfg : PCfg M) (st st' : St M) (hx : ∀ n < cfg.sys.N, st.x n = st'.x n)
    (hc : st.c = st'.c) (ht : st.t = st'.t) : cfg.full.decide st = cfg.full.decide st' := by
  have hu : cfg.full.u0 st = cfg.full.u0 st' := by
    unfold Cfg.u0
    show Vec.mk _ (fun l => if cfg.full.hasInput = true then (cfg.sigAt l).eval (0 + st.t) else 0) =
      Vec.mk _ (fun l => if cfg.full.hasInput = true then (cfg.sigAt l).eval (0 + st'.t) else 0)
    rw [ht]
  unfold Cfg.decide Sys.controlObservation
  rw [hu, hc]
  cases hGT : cfg.full.sys.GammaT with
  | none => rfl
  | some GT =>
    have hdot : npDot cfg.full.sys.Mt cfg.full.sys.N GT ⟨cfg.full.sys.N, st.x⟩ =
        npDot cfg.full.sys.Mt cfg.full.sys.N GT ⟨cfg.full.sys.N, st'.x⟩ := by
      unfold npDot dot
      dsimp only
      rw [if_neg (by simp), if_neg (by simp)]
      congr 2
      funext r
      exact Finset.sum_congr rfl fun c hcc => by rw [hx c (Finset.mem_range.mp hcc)]
    dsimp only
    rw [hdot]

/-- a period of the full simulator only depends on the states of the system, the decisions and the time -/
theorem period_congr {M : ℕ} (cfg : PCfg M) (hin : cfg.full.hasInput = true) (G : ℕ → ℕ → ℝ)
    (hG : cfg.sys.Gamma = some G) (hM : cfg.sys.M = M) (st pst st' : St M) (φ : ℝ → ℕ → ℝ)
    (hx : ∀ n < cfg.sys.N, st.x n = pst.x n) (hc : st.c = pst.c) (ht : st.t = pst.t)
    (h : Period cfg.full st φ st') : Period cfg.full pst φ { st' with ticks := pst.ticks + 1 } := by
  have hs := h.sol hin G hG
  refine Period.of_sol hin G hG hM ?_ ?_ ?_ h.stop rfl ?_
  · rw [← decide_congr cfg st pst hx hc ht]; exact h.dec
  · rw [ht] at hs; exact hs
  · intro n hn; rw [h.start n hn]; exact hx n hn
  · show st'.t = _; rw [h.time, ht]

/-- C29 for whole simulations: under the conditions of `C29_exact_partial` (the signals being constant over every
period), the pre-computing simulator and the full simulator started alike have the same states and decisions at
the end of every period. -/
theorem C29_run_partial {M : ℕ} (cfg : PCfg M) (hcheck : cfg.check = .ok ()) (hsig : 0 < cfg.sig.length)
    (hT : 0 < cfg.dc.T) (htt : 0 ≤ cfg.dc.tt2) (hdelay : cfg.dc.tDelay = 0)
    (hpos : ∀ m, 0 ≤ (cfg.dc.ir m).t0)
    (G : ℕ → ℕ → ℝ) (hG : cfg.sys.Gamma = some G) (hM : cfg.sys.M = M)
    (hout : ∀ l < cfg.sig.length, ∀ a ω p o, cfg.sigAt l = .sine a ω p o → cfg.sys.Nt = cfg.sys.N ∧
      (∀ r < cfg.sys.N, ∀ c < cfg.sys.N, cfg.sys.CT r c = if r = c then 1 else 0) ∧
      ∀ r < cfg.sys.N, ∀ c < cfg.sys.L, cfg.sys.D r c = 0)
    (hreg : ∀ l < cfg.sig.length, ∀ a ω p o, cfg.sigAt l = .sine a ω p o →
      Analog.Spec.Regular cfg.sys.N (fun r c => (cfg.sys.A r c : ℂ)) (Complex.I * ω))
    (ctrl pw : ℕ → ℕ → ℝ) (hpre : Pre cfg G ctrl pw) (pst st : ℕ → St M) (φ : ℕ → ℝ → ℕ → ℝ)
    (hpw : ∀ l < cfg.sig.length, ∀ f, cfg.sigAt l = .pw f → ∀ k : ℕ,
      ∀ s ∈ Ico ((st 0).t + k * cfg.dc.T) ((st 0).t + (k + 1) * cfg.dc.T), f s = f ((st 0).t + (k + 1) * cfg.dc.T))
    (hnext : ∀ k, cfg.next ctrl pw (pst k) = .ok (pst (k + 1))) (hrun : Run cfg.full st φ)
    (h0 : (∀ n < cfg.sys.N, (st 0).x n = (pst 0).x n) ∧ (st 0).c = (pst 0).c ∧ (st 0).t = (pst 0).t) (k : ℕ) :
    (∀ n < cfg.sys.N, (st k).x n = (pst k).x n) ∧ (st k).c = (pst k).c ∧ (st k).t = (pst k).t := by
  have hin : cfg.full.hasInput = true := by
    show decide (0 < cfg.sig.length) = true
    rw [decide_eq_true hsig]
  induction k with
  | zero => exact h0
  | succ k ih =>
    obtain ⟨hx, hc, ht⟩ := ih
    have hp := period_congr cfg hin G hG hM _ _ _ _ hx hc ht (hrun k)
    have htime : (st k).t = (st 0).t + k * cfg.dc.T := run_time cfg.full st φ hrun k
    have he : (pst k).t + cfg.dc.T = (st 0).t + (k + 1) * cfg.dc.T := by rw [← ht, htime]; ring
    have := (C29_exact_partial cfg hcheck hsig hT htt hdelay hpos G hG hM hout hreg ctrl pw hpre (pst k)
      (pst (k + 1)) (by
        intro l hl f hf s hs
        rw [he] at hs ⊢
        exact hpw l hl f hf k s (by rwa [← htime, ht])) (hnext k)).2 _ _ hp
    exact this

/-- the single-integrator system used in the cases below, with output gain `c` -/
def exSys (c : ℝ) : Sys ℝ := ⟨1, 1, 1, 1, 1, fun _ _ => 0, fun _ _ => 1, fun _ _ => c, some fun _ _ => 1,
    some fun _ _ => -1, fun _ _ => 0, fun _ _ => 0, fun _ _ => 0⟩

/-- its default control with period 1 -/
noncomputable def exDC : DC ℝ 1 := ⟨1, 0, 0, fun _ => stepResponse 0, fun _ => 0⟩

theorem exDC_new : DC.new (1 : ℝ) 0 1 none 0 none = .ok exDC := by
  simp [DC.new, initIR, initOffsets, exDC]

theorem exSys_new (c : ℝ) : Sys.new (.mat 1 1 fun _ _ => 0) (.mat 1 1 fun _ _ => 1) (.mat 1 1 fun _ _ => c)
    (some (.mat 1 1 fun _ _ => 1)) (some (.mat 1 1 fun _ _ => -1)) none none none = .ok (exSys c) :=
  (C21_entries 1 1 1 1 1 (fun _ _ => (0 : ℝ)) (fun _ _ => 1) (fun _ _ => c) (fun _ _ => 1)
      (fun _ _ => -1) (fun _ _ => 0) (fun _ _ => 0) (fun _ _ => 0)).2

/-- ramps are the forced responses of the integrator -/
theorem exForced (c : ℝ) (v : ℝ → ℕ → ℝ) (hv : ∀ τ ∈ Ico (0 : ℝ) 1, v τ 0 = 1) :
    Forced (exSys c) 1 v (fun τ _ => τ) where
  start _ _ := rfl
  cont _ _ := continuousOn_id
  ode τ hτ n hn := by
    have hn0 : n = 0 := by have : n < 1 := hn; omega
    subst hn0
    refine (hasDerivWithinAt_id τ _).congr_deriv ?_
    rw [hv τ hτ]
    simp [dot, exSys]

theorem exPre (c : ℝ) (sig : List Sig) :
    Pre ⟨exSys c, exDC, sig⟩ (fun _ _ => 1) (fun _ _ => 1) (fun _ _ => 1) where
  ctrl m := by
    refine ⟨fun τ _ => τ, exForced c _ ?_, fun n _ => rfl⟩
    intro τ hτ
    have hm : m = 0 := Subsingleton.elim _ _
    subst hm
    show (∑ i ∈ range 1, (1 : ℝ) * (asVec (impulseResponse exDC 0 τ)).v i) = 1
    rw [Finset.sum_range_one, one_mul]
    show (if h : 0 < 1 then impulseResponse exDC 0 τ ⟨0, h⟩ else 0) = 1
    rw [dif_pos (by omega)]
    show (if (0 : Fin 1) = 0 ∧ 0 ≤ τ ∧ τ ≤ 1 then (if (0 : ℝ) ≤ τ then (1 : ℝ) else 0) else 0) = 1
    rw [if_pos ⟨rfl, hτ.1, hτ.2.le⟩, if_pos hτ.1]
  pw l hl' := by
    refine ⟨fun τ _ => τ, exForced c _ (fun _ _ => rfl), fun n _ => rfl⟩

theorem ex_expAT (c : ℝ) (x : ℕ → ℝ) : matVec (expAT (exSys c) 1) x 0 = x 0 := by
  have h0 : toM (exSys c).N (exSys c).N (exSys c).A = 0 := by
    funext i j
    rfl
  unfold matVec expAT
  rw [h0, smul_zero, NormedSpace.exp_zero, dif_pos (show 0 < (exSys c).N from Nat.one_pos)]
  rw [Finset.sum_eq_single ⟨0, Nat.one_pos⟩]
  · simp
  · intro b _ hb
    exact absurd (Subsingleton.elim (α := Fin 1) b ⟨0, by omega⟩) hb
  · intro h; exact absurd (Finset.mem_univ _) h

/-- the decision of the example at state `1/2`: the control pulls down -/
theorem ex_decide (c : ℝ) (sig : List Sig) (t : ℝ) :
    ∃ c', (PCfg.mk (exSys c) exDC sig : PCfg 1).full.decide ⟨0, t, fun _ => 1 / 2, State.init⟩ = .ok c' ∧
      (∀ m, c'.s m = 0) ∧ ∀ m, c'.cur m = -1 := by
  obtain ⟨y, hy1, hy2, hy3⟩ := (C27_observation_partial (exSys c) _ rfl ⟨1, fun _ => 1 / 2⟩
    ((PCfg.mk (exSys c) exDC sig : PCfg 1).full.u0 ⟨0, t, fun _ => 1 / 2, State.init⟩)
    (asVec (contribution exDC State.init 0)) rfl rfl rfl).1
  have hy0 : ∀ r, y.v r = -(1 / 2) := by
    intro r
    rw [hy3]
    show (∑ c ∈ range 1, (-1 : ℝ) * (1 / 2)) + (∑ c ∈ range 1, (0 : ℝ) * _) + ∑ c ∈ range 1, (0 : ℝ) * _ = _
    simp
  refine ⟨update exDC State.init 0 fun m => y.v m, ?_, ?_, ?_⟩
  · rw [decide_ok]
    exact ⟨y, hy1, hy2.ge, rfl⟩
  · intro m
    show (if allclose (0 : ℝ) 0 0 then (if (0 : ℝ) ≤ y.v m then (1 : ℝ) else 0) else 0) = 0
    rw [if_pos (by simp [allclose]), hy0, if_neg (by norm_num)]
  · intro m
    show (if allclose (0 : ℝ) 0 0 then 2 * (if (0 : ℝ) ≤ y.v m then (1 : ℝ) else 0) - 1 else 0) = -1
    rw [if_pos (by simp [allclose]), hy0, if_neg (by norm_num)]
    norm_num

/-- an exact period of the full simulator for the example, given an antiderivative of the input -/
theorem ex_period (c : ℝ) (q : Sig) (c' : State ℝ 1) (F : ℝ → ℝ)
    (hdec : (PCfg.mk (exSys c) exDC [q] : PCfg 1).full.decide ⟨0, 0, fun _ => 1 / 2, State.init⟩ = .ok c')
    (hcur : ∀ m, c'.cur m = -1) (hF0 : F 0 = 0) (hFc : ContinuousOn F (Icc 0 1))
    (hF : ∀ τ ∈ Ico (0 : ℝ) 1, HasDerivWithinAt F (q.eval τ) (Ici τ) τ) :
    Period (PCfg.mk (exSys c) exDC [q] : PCfg 1).full ⟨0, 0, fun _ => 1 / 2, State.init⟩
      (fun τ _ => 1 / 2 + F τ - τ) ⟨1, 1, fun _ => 1 / 2 + F 1 - 1, c'⟩ := by
  refine Period.of_sol rfl (fun _ _ => 1) rfl rfl hdec ⟨fun n _ => ?_, fun τ hτ n hn => ?_⟩ ?_ (fun _ _ => rfl) rfl ?_
  · exact (continuousOn_const.add hFc).sub continuousOn_id
  · refine (((hF τ hτ).const_add (1 / 2)).sub (hasDerivWithinAt_id τ _)).congr_deriv ?_
    show q.eval τ - 1 = (∑ i ∈ range 1, (0 : ℝ) * _) + ((∑ i ∈ range 1, (1 : ℝ) *
      ((PCfg.mk (exSys c) exDC [q] : PCfg 1).sigAt i).eval (τ + 0)) +
      (∑ i ∈ range 1, (1 : ℝ) * (asVec (contribution exDC c' τ)).v i))
    rw [Finset.sum_range_one, Finset.sum_range_one, Finset.sum_range_one]
    have h1 : (asVec (contribution exDC c' τ)).v 0 = -1 := by
      show (if h : 0 < 1 then contribution exDC c' τ ⟨0, h⟩ else 0) = -1
      rw [dif_pos (by omega)]
      show (if τ < (0 : ℝ) then _ else (if (0 : ℝ) ≤ τ then (1 : ℝ) else 0)) *
        (if τ < (0 : ℝ) then _ else c'.cur 0) = -1
      rw [if_neg (not_lt.mpr hτ.1), if_neg (not_lt.mpr hτ.1), if_pos hτ.1, hcur]
      norm_num
    have h2 : (PCfg.mk (exSys c) exDC [q] : PCfg 1).sigAt 0 = q := rfl
    rw [h1, h2, add_zero]
    ring
  · intro n _
    show 1 / 2 + F 0 - 0 = 1 / 2
    rw [hF0]
    ring
  · show (1 : ℝ) = 0 + 1
    ring

/-- the new state of the example -/
theorem ex_next (c : ℝ) (sig : List Sig) (c' : State ℝ 1)
    (hdec : (PCfg.mk (exSys c) exDC sig : PCfg 1).full.decide ⟨0, 0, fun _ => 1 / 2, State.init⟩ = .ok c') :
    ∃ st', (PCfg.mk (exSys c) exDC sig : PCfg 1).next (fun _ _ => 1) (fun _ _ => 1)
        ⟨0, 0, fun _ => 1 / 2, State.init⟩ = .ok st' ∧
      st'.x 0 = 1 / 2 + ((PCfg.mk (exSys c) exDC sig : PCfg 1).sines 1 0 -
        (PCfg.mk (exSys c) exDC sig : PCfg 1).sines 0 0) +
        (PCfg.mk (exSys c) exDC sig : PCfg 1).pieces (fun _ _ => 1) 0 0 + (2 * c'.s 0 - 1) := by
  unfold PCfg.next
  rw [if_neg (by simp [exSys]), hdec]
  refine ⟨_, rfl, ?_⟩
  show matVec (expAT (exSys c) 1) (fun _ => 1 / 2) 0 +
      (PCfg.sines (PCfg.mk (exSys c) exDC sig) (0 + 1) 0 -
        matVec (expAT (exSys c) 1) (PCfg.sines (PCfg.mk (exSys c) exDC sig) (0 + 0)) 0) +
      PCfg.pieces (PCfg.mk (exSys c) exDC sig) _ 0 0 + (∑ m : Fin 1, (1 : ℝ) * (2 * c'.s m - 1)) = _
  rw [ex_expAT, ex_expAT, zero_add, add_zero]
  simp

/-- C29 is false for piecewise constant signals that change at the end of a period (a zero-order hold with the
clock's own period does so): the value at the end of the period is used for the whole period.  All other
conditions of `C29_exact_partial` hold. -/
theorem C29_piecewise_false :
    ∃ (cfg : PCfg 1) (ctrl pw : ℕ → ℕ → ℝ) (st st' st'' : St 1) (φ : ℝ → ℕ → ℝ),
      cfg.sys = exSys 1 ∧ cfg.dc = exDC ∧ cfg.sig = [.pw fun t => if t < 1 then 0 else 1] ∧
      cfg.check = .ok () ∧ Pre cfg (fun _ _ => 1) ctrl pw ∧ st.t = 0 ∧
      cfg.next ctrl pw st = .ok st' ∧ Period cfg.full st φ st'' ∧ st'.x 0 = 1 / 2 ∧ st''.x 0 = -(1 / 2) := by
  obtain ⟨c', hdec, hs, hcur⟩ := ex_decide 1 [.pw fun t => if t < 1 then 0 else 1] 0
  obtain ⟨st', hnext, hx⟩ := ex_next 1 _ c' hdec
  refine ⟨⟨exSys 1, exDC, [.pw fun t => if t < 1 then 0 else 1]⟩, fun _ _ => 1, fun _ _ => 1,
    ⟨0, 0, fun _ => 1 / 2, State.init⟩, st', _, _, rfl, rfl, rfl, ?_, exPre 1 _, rfl, hnext,
    ex_period 1 _ c' (fun _ => 0) hdec hcur rfl continuousOn_const ?_, ?_, ?_⟩
  · unfold PCfg.check
    rw [if_neg (by simp [exSys]), if_neg (by simp [exDC, stepResponse]), if_neg (by simp [Sig.hasOffset])]
  · intro τ hτ
    refine (hasDerivWithinAt_const τ _ (0 : ℝ)).congr_deriv ?_
    show (0 : ℝ) = if τ < 1 then 0 else 1
    rw [if_pos hτ.2]
  · rw [hx]
    simp [PCfg.sines, PCfg.pieces, PCfg.sigAt, hs, exDC]
  · show (1 / 2 : ℝ) + 0 - 1 = -(1 / 2)
    norm_num

/-- the transfer function of the example -/
theorem ex_tf (c ω : ℝ) (hω : ω ≠ 0) : tfCol (exSys c) ω 0 0 = c * (Complex.I * ω)⁻¹ := by
  unfold tfCol
  rw [ite_self]
  unfold tfEntry
  rw [dif_pos ⟨Nat.one_pos, Nat.one_pos⟩]
  unfold Sys.tfm Sys.atf
  rw [Matrix.add_apply, Matrix.mul_apply]
  have hinv : ((Complex.I * ω) • (1 : Matrix (Fin (cplx (exSys c)).N) (Fin (cplx (exSys c)).N) ℂ) -
      toM (cplx (exSys c)).N (cplx (exSys c)).N (cplx (exSys c)).A) = Matrix.diagonal fun _ => Complex.I * ω := by
    ext i j
    have hij : i = j := Subsingleton.elim (α := Fin 1) i j
    subst hij
    rw [Matrix.sub_apply, Matrix.smul_apply, Matrix.one_apply_eq, Matrix.diagonal_apply_eq, smul_eq_mul, mul_one]
    show Complex.I * (ω : ℂ) - ((0 : ℝ) : ℂ) = _
    rw [Complex.ofReal_zero, sub_zero]
  have hne : Complex.I * (ω : ℂ) ≠ 0 := mul_ne_zero Complex.I_ne_zero (Complex.ofReal_ne_zero.mpr hω)
  have hinv2 : (Matrix.diagonal fun _ : Fin (cplx (exSys c)).N => Complex.I * (ω : ℂ))⁻¹ =
      Matrix.diagonal fun _ => (Complex.I * (ω : ℂ))⁻¹ := by
    refine Matrix.inv_eq_right_inv ?_
    rw [Matrix.diagonal_mul_diagonal]
    simp only [mul_inv_cancel₀ hne]
    exact Matrix.diagonal_one
  rw [hinv, hinv2]
  rw [Finset.sum_eq_single ⟨0, Nat.one_pos⟩]
  · rw [Matrix.diagonal_mul]
    show ((0 : ℝ) : ℂ) + (c : ℂ) * ((Complex.I * (ω : ℂ))⁻¹ * ((1 : ℝ) : ℂ)) = _
    simp
  · intro b _ hb
    exact absurd (Subsingleton.elim (α := Fin 1) b ⟨0, by omega⟩) hb
  · intro h; exact absurd (Finset.mem_univ _) h

/-- `sine_after - sine_before` of the example over one half wave -/
theorem ex_sines (c : ℝ) :
    (PCfg.mk (exSys c) exDC [.sine 1 Real.pi 0 0] : PCfg 1).sines 1 0 -
      (PCfg.mk (exSys c) exDC [.sine 1 Real.pi 0 0] : PCfg 1).sines 0 0 = c * (2 / Real.pi) := by
  have hp : ∀ t, (PCfg.mk (exSys c) exDC [.sine 1 Real.pi 0 0] : PCfg 1).sines t 0 =
      (tfCol (exSys c) Real.pi 0 0).re * Real.sin (Real.pi * t) +
        (tfCol (exSys c) Real.pi 0 0).im * Real.cos (Real.pi * t) := by
    intro t
    rw [← polar]
    show (∑ l ∈ range 1, _) = _
    rw [Finset.sum_range_one]
    show ‖tfCol (exSys c) Real.pi 0 0‖ * 1 * Real.sin (Real.pi * t + ((tfCol (exSys c) Real.pi 0 0).arg + 0)) = _
    rw [mul_one, add_zero]
  rw [hp, hp, ex_tf c _ Real.pi_ne_zero, mul_one, mul_zero, Real.sin_pi, Real.cos_pi, Real.sin_zero, Real.cos_zero]
  have him : ((c : ℂ) * (Complex.I * (Real.pi : ℂ))⁻¹).im = -(c / Real.pi) := by
    rw [mul_inv, Complex.inv_I]
    have : (c : ℂ) * (-Complex.I * ((Real.pi : ℂ))⁻¹) = ((-(c / Real.pi) : ℝ) : ℂ) * Complex.I := by
      push_cast
      rw [div_eq_mul_inv]
      ring
    rw [this, Complex.im_ofReal_mul, Complex.I_im, mul_one]
  rw [him]
  ring

/-- C29 is false for sinusoids when the outputs are not the states: the transfer function to the outputs is used
for the states.  Here `CT = 2`; all other conditions of `C29_exact_partial` hold. -/
theorem C29_output_false :
    ∃ (cfg : PCfg 1) (ctrl pw : ℕ → ℕ → ℝ) (st st' st'' : St 1) (φ : ℝ → ℕ → ℝ),
      cfg.sys = exSys 2 ∧ cfg.dc = exDC ∧ cfg.sig = [.sine 1 Real.pi 0 0] ∧
      cfg.check = .ok () ∧ Pre cfg (fun _ _ => 1) ctrl pw ∧ st.t = 0 ∧
      cfg.next ctrl pw st = .ok st' ∧ Period cfg.full st φ st'' ∧ st'.x 0 ≠ st''.x 0 := by
  obtain ⟨c', hdec, hs, hcur⟩ := ex_decide 2 [.sine 1 Real.pi 0 0] 0
  have hpi := Real.pi_pos
  have hder : ∀ τ : ℝ, HasDerivAt (fun τ => (1 - Real.cos (Real.pi * τ)) / Real.pi) (Real.sin (Real.pi * τ)) τ := by
    intro τ
    have h1 : HasDerivAt (fun τ : ℝ => Real.pi * τ) (Real.pi * 1) τ := (hasDerivAt_id τ).const_mul _
    refine ((h1.cos.const_sub 1).div_const Real.pi).congr_deriv ?_
    field_simp
  obtain ⟨st', hnext, hx⟩ := ex_next 2 _ c' hdec
  refine ⟨⟨exSys 2, exDC, [.sine 1 Real.pi 0 0]⟩, fun _ _ => 1, fun _ _ => 1,
    ⟨0, 0, fun _ => 1 / 2, State.init⟩, st', _, _, rfl, rfl, rfl, ?_, exPre 2 _, rfl, hnext,
    ex_period 2 _ c' (fun τ => (1 - Real.cos (Real.pi * τ)) / Real.pi) hdec hcur (by simp)
      (fun τ _ => (hder τ).continuousAt.continuousWithinAt) ?_, ?_⟩
  · unfold PCfg.check
    rw [if_neg (by simp [exSys]), if_neg (by simp [exDC, stepResponse]), if_neg (by simp [Sig.hasOffset])]
  · intro τ hτ
    refine (hder τ).hasDerivWithinAt.congr_deriv ?_
    show _ = 1 * Real.sin (Real.pi * τ + 0) + 0
    rw [one_mul, add_zero, add_zero]
  · rw [hx, ex_sines]
    show _ ≠ 1 / 2 + (1 - Real.cos (Real.pi * 1)) / Real.pi - 1
    rw [mul_one, Real.cos_pi, hs]
    simp only [PCfg.pieces, PCfg.sigAt, List.length_cons, List.length_nil, zero_add, Finset.sum_range_one,
      List.getD_cons_zero]
    intro h
    have : (2 : ℝ) * (2 / Real.pi) = 2 / Real.pi := by linarith
    have h3 : (2 : ℝ) / Real.pi > 0 := by positivity
    linarith

/-- C29 is false at a resonance of the system: a sinusoid of frequency zero, here the constant one, into an integrator
leaves no trace, because the code subtracts the stationary response at the beginning of the period from that at its end
(whatever value the transfer function is given at its pole, these are equal).  All other conditions of
`C29_exact_partial` hold. -/
theorem C29_resonance_false :
    ∃ (cfg : PCfg 1) (ctrl pw : ℕ → ℕ → ℝ) (st st' st'' : St 1) (φ : ℝ → ℕ → ℝ),
      cfg.sys = exSys 1 ∧ cfg.dc = exDC ∧ cfg.sig = [.sine 1 0 (Real.pi / 2) 0] ∧
      (∀ t, (cfg.sigAt 0).eval t = 1) ∧ cfg.check = .ok () ∧ Pre cfg (fun _ _ => 1) ctrl pw ∧ st.t = 0 ∧
      cfg.next ctrl pw st = .ok st' ∧ Period cfg.full st φ st'' ∧ st'.x 0 = -(1 / 2) ∧ st''.x 0 = 1 / 2 := by
  obtain ⟨c', hdec, hs, hcur⟩ := ex_decide 1 [.sine 1 0 (Real.pi / 2) 0] 0
  obtain ⟨st', hnext, hx⟩ := ex_next 1 _ c' hdec
  refine ⟨⟨exSys 1, exDC, [.sine 1 0 (Real.pi / 2) 0]⟩, fun _ _ => 1, fun _ _ => 1,
    ⟨0, 0, fun _ => 1 / 2, State.init⟩, st', _, _, rfl, rfl, rfl, ?_, ?_, exPre 1 _, rfl, hnext,
    ex_period 1 _ c' (fun τ => τ) hdec hcur rfl continuousOn_id ?_, ?_, ?_⟩
  · intro t
    show 1 * Real.sin (0 * t + Real.pi / 2) + 0 = 1
    rw [zero_mul, zero_add, Real.sin_pi_div_two]
    norm_num
  · unfold PCfg.check
    rw [if_neg (by simp [exSys]), if_neg (by simp [exDC, stepResponse]), if_neg (by simp [Sig.hasOffset])]
  · intro τ hτ
    refine (hasDerivWithinAt_id τ _).congr_deriv ?_
    show 1 = 1 * Real.sin (0 * τ + Real.pi / 2) + 0
    rw [zero_mul, zero_add, Real.sin_pi_div_two]
    norm_num
  · have hc : ∀ t, (PCfg.mk (exSys 1) exDC [.sine 1 0 (Real.pi / 2) 0] : PCfg 1).sines t 0 =
        (PCfg.mk (exSys 1) exDC [.sine 1 0 (Real.pi / 2) 0] : PCfg 1).sines 0 0 := by
      intro t
      simp [PCfg.sines, PCfg.sigAt]
    rw [hx, hc 1, sub_self, hs]
    simp only [PCfg.pieces, PCfg.sigAt, List.length_cons, List.length_nil, zero_add, Finset.sum_range_one,
      List.getD_cons_zero]
    norm_num
  · show (1 / 2 : ℝ) + 1 - 1 = 1 / 2
    norm_num

/-- `C29_run_partial`: the conditions of `C29_exact_partial` are met: the same integrator with outputs equal to its states and a
sinusoidal input -/
example : ∃ st', (PCfg.mk (exSys 1) exDC [.sine 1 Real.pi 0 0] : PCfg 1).next (fun _ _ => 1) (fun _ _ => 1)
      ⟨0, 0, fun _ => 1 / 2, State.init⟩ = .ok st' ∧
    (PCfg.mk (exSys 1) exDC [.sine 1 Real.pi 0 0] : PCfg 1).check = .ok () ∧
    Pre (PCfg.mk (exSys 1) exDC [.sine 1 Real.pi 0 0] : PCfg 1) (fun _ _ => 1) (fun _ _ => 1) (fun _ _ => 1) ∧
    Analog.Spec.Regular (exSys 1).N (fun r c => ((exSys 1).A r c : ℂ)) (Complex.I * Real.pi) := by
  obtain ⟨c', hdec, hs, hcur⟩ := ex_decide 1 [.sine 1 Real.pi 0 0] 0
  obtain ⟨st', hnext, hx⟩ := ex_next 1 _ c' hdec
  refine ⟨st', hnext, ?_, exPre 1 _, ?_⟩
  · unfold PCfg.check
    rw [if_neg (by simp [exSys]), if_neg (by simp [exDC, stepResponse]), if_neg (by simp [Sig.hasOffset])]
  · intro x hx r hr
    have := hx r hr
    simp [exSys] at this
    exact this

/-- both parts of `C29_refused` have cases, and piecewise constant inputs do not need outputs equal to the states: the
integrator with output gain two and a constant input makes a step; with three outputs and a sinusoid it does not. -/
example : (∃ st', (PCfg.mk (exSys 2) exDC [.pw fun _ => 1] : PCfg 1).next (fun _ _ => 1) (fun _ _ => 1)
      ⟨0, 0, fun _ => 1 / 2, State.init⟩ = .ok st') ∧
    (PCfg.mk { exSys 1 with Nt := 3 } exDC [.sine 1 Real.pi 0 0] : PCfg 1).next (fun _ _ => 1) (fun _ _ => 1)
      ⟨0, 0, fun _ => 1 / 2, State.init⟩ = .error .valueError := by
  obtain ⟨c', hdec, hs, hcur⟩ := ex_decide 2 [.pw fun _ => 1] 0
  obtain ⟨st', hnext, hx⟩ := ex_next 2 _ c' hdec
  refine ⟨⟨st', hnext⟩, (C29_refused _ _ _ _).1 ⟨1, Real.pi, 0, 0, by simp⟩ ?_ ?_⟩
  · simp [exSys]
  · simp

end Cbadc.Simulate
