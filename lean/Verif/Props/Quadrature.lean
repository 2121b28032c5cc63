import Verif.Lemmas.Quadrature
import Verif.Lemmas.Synthesis
import Verif.Props.LeapFrog

/-! # C84 to C87: bandpass, oscillator and parallel leap-frog synthesis -/

namespace Cbadc.Synthesis
open Analog Control Signal Finset
open Analog.Spec Spec

/-! ### what `get_bandpass` returns -/

/-- the digital control of a bandpass frontend -/
noncomputable def bpDC (fe : Frontend) : DC ℝ (2 * fe.M) := ⟨fe.dc.T, fe.dc.tt2, 0, fun _ => stepResponse 0, fun _ => 0⟩

/-- the analog system of a bandpass frontend with carrier `w` -/
noncomputable def bpSys (g : Sys ℝ) (w : ℝ) (M Mt : ℕ) (G GT : ℕ → ℕ → ℝ) : Sys ℝ :=
  ⟨g.N + g.N, g.L + g.L, M, Mt, g.Nt + g.Nt,
    blockSet g.N (2 * g.N) 0 g.N (blockSet 0 g.N g.N (2 * g.N) (stackMat Sys.N Sys.N Sys.A [g, g]) (eyeBlock (-w)))
      (eyeBlock w),
    stackMat Sys.N Sys.L Sys.B [g, g], stackMat Sys.Nt Sys.N Sys.CT [g, g], some G, some GT, fun _ _ => 0, fun _ _ => 0,
    stackMat Sys.Mt Sys.M Sys.At [g, g]⟩

theorem total2 (f : Sys ℝ → ℕ) (g : Sys ℝ) : total f [g, g] = f g + f g := by simp [total]

theorem new_bp (n l m mt nt : ℕ) (A B CT G GT Bt At : ℕ → ℕ → ℝ) :
    Sys.new (.mat n n A) (.mat n l B) (.mat nt n CT) (some (.mat n m G)) (some (.mat mt n GT)) none (some (.mat mt l Bt))
      (some (.mat mt m At)) = .ok ⟨n, l, m, mt, nt, A, B, CT, some G, some GT, fun _ _ => 0, Bt, At⟩ := by
  simp [Sys.new, checkGamma, checkGammaT, checkB, checkCT, checkOpt, Arr.shape0, Arr.shape1, Arr.entries,
    bind, Except.bind]

theorem dc_bp (fe : Frontend) : DC.new fe.dc.T fe.dc.tt2 (2 * fe.M) none 0 none = .ok (bpDC fe) := by
  unfold DC.new initIR initOffsets
  rw [if_neg (lt_irrefl 0)]
  rfl

/-- the system with the single input that drives the second copy with the opposite sign -/
def scalarIn (g : Sys ℝ) : Sys ℝ := { g with L := 1, B := fun r _ => if g.N / 2 ≤ r then -g.B r 1 else g.B r 0 }

/-- `get_bandpass(..., modulate=...)` accepts every frontend with states and controls -/
theorem bandpass_mod (fe : Frontend) (fc : ℝ) (phi delta : Option ℝ) (sc : Bool) (G : ℕ → ℕ → ℝ)
    (hG : fe.sys.Gamma = some G) (hN : fe.sys.N ≠ 0) (hM : fe.sys.M ≠ 0) (hL : sc = true → fe.sys.L ≠ 0) :
    bandpass { frontend := some fe, fc := some fc, phi := phi, deltaDC := delta, modulate := true, scalarInput := sc } =
      .ok ⟨2 * fe.M, (if sc then scalarIn else id) (bpSys fe.sys (2 * Real.pi * fc) (fe.sys.M + fe.sys.M)
        (fe.sys.Mt + fe.sys.Mt) (stackMat Sys.N Sys.M (fun g => optBlock g.Gamma) [fe.sys, fe.sys])
        (stackMat Sys.Mt Sys.N (fun g => optBlock g.GammaT) [fe.sys, fe.sys])), bpDC fe⟩ := by
  have h0 : gamma00 fe.sys = .ok (G 0 0) := by
    unfold gamma00
    rw [hG]
    exact if_neg (by simp [hN, hM])
  unfold bandpass
  dsimp only
  rw [h0]
  dsimp only
  rw [stack_eq _ (by simp)]
  dsimp only
  rw [if_pos rfl]
  dsimp only
  rw [dc_bp]
  dsimp only
  cases sc with
  | false =>
    rw [if_neg (by simp), if_neg (by simp), if_neg (by simp)]
    simp only [total2, optBlock]
    rw [new_bp]
    rfl
  | true =>
    have := hL rfl
    rw [if_neg (by rw [total2]; omega), if_pos rfl, if_pos rfl]
    simp only [total2, optBlock, sub_zero]
    rw [new_bp]
    rfl

/-- `get_bandpass` without `modulate` accepts frontends with one control per state unless a divisor is zero -/
theorem bandpass_ctl (fe : Frontend) (fc : ℝ) (phi delta : Option ℝ) (sc : Bool) (G : ℕ → ℕ → ℝ)
    (hG : fe.sys.Gamma = some G) (hN : fe.sys.N ≠ 0) (hM : fe.sys.M = fe.sys.N) (hMt : fe.sys.Mt = fe.sys.N)
    (hs : Real.sin (2 * Real.pi * fc * fe.dc.T / 2) ≠ 0) (hb : G 0 0 * fe.dc.T ≠ 0) (hL : sc = true → fe.sys.L ≠ 0) :
    bandpass { frontend := some fe, fc := some fc, phi := phi, deltaDC := delta, scalarInput := sc } =
      .ok ⟨2 * fe.M, (if sc then scalarIn else id) (bpSys fe.sys (2 * Real.pi * fc) (fe.sys.N + fe.sys.N)
        (fe.sys.N + fe.sys.N) (rotBlocks fe.sys.N
          (G 0 0 * fe.dc.T * (2 * Real.pi * fc) / (2 * Real.sin (2 * Real.pi * fc * fe.dc.T / 2)) * Real.cos (phi.getD 0))
          (G 0 0 * fe.dc.T * (2 * Real.pi * fc) / (2 * Real.sin (2 * Real.pi * fc * fe.dc.T / 2)) * Real.sin (phi.getD 0)))
        (rotBlocks fe.sys.N
          (-1 / (G 0 0 * fe.dc.T) * Real.cos (2 * Real.pi * fc * (fe.dc.T / 2 + delta.getD 0) - phi.getD 0))
          (-1 / (G 0 0 * fe.dc.T) * Real.sin (2 * Real.pi * fc * (fe.dc.T / 2 + delta.getD 0) - phi.getD 0)))),
        bpDC fe⟩ := by
  have h0 : gamma00 fe.sys = .ok (G 0 0) := by
    unfold gamma00
    rw [hG]
    exact if_neg (by simp [hN, hM])
  unfold bandpass
  dsimp only
  rw [h0]
  dsimp only
  rw [stack_eq _ (by simp)]
  dsimp only
  rw [if_neg (by simp)]
  unfold bpControl
  rw [if_neg (by push Not; exact ⟨mul_ne_zero two_ne_zero hs, hb⟩)]
  dsimp only
  rw [dc_bp]
  dsimp only
  cases sc with
  | false =>
    rw [if_neg (by simp), if_neg (by simp), if_neg (by simp)]
    simp only [total2, two_mul fe.sys.N, hM, hMt]
    rw [new_bp]
    rw [if_neg (by simp)]
    unfold bpSys
    simp only [two_mul fe.sys.N, id_eq]
  | true =>
    have := hL rfl
    rw [if_neg (by rw [total2]; omega), if_pos rfl, if_pos rfl]
    simp only [total2, two_mul fe.sys.N, hM, hMt, sub_zero]
    rw [new_bp]
    rw [if_pos trivial]
    unfold bpSys scalarIn
    simp only [two_mul fe.sys.N]

/-! ### C84: bandpass frontends -/

/-- the complex signal made of the two halves of a quadrature vector (specification) -/
noncomputable def envelope (n : ℕ) (x : ℕ → ℝ) : ℕ → ℂ := fun i => (x i : ℂ) + Complex.I * x (n + i)

/-- the envelope rotated back by the carrier with angular frequency `w` (specification) -/
noncomputable def demod (w : ℝ) (n : ℕ) (x : ℝ → ℕ → ℝ) (t : ℝ) : ℕ → ℂ := fun i =>
  Complex.exp (-(Complex.I * w) * t) * envelope n (x t) i

/-- what drives a state besides its control: `A x + B u` (specification) -/
def drive {K : Type*} [Field K] (g : Sys K) (x u : ℕ → K) (r : ℕ) : K :=
  (∑ c ∈ range g.N, g.A r c * x c) + ∑ c ∈ range g.L, g.B r c * u c

/-- the envelope of `A x + B u` in a bandpass system -/
theorem bp_drive (g : Sys ℝ) (w : ℝ) (M Mt : ℕ) (G GT : ℕ → ℕ → ℝ) (x u : ℕ → ℝ) (r : ℕ) (hr : r < g.N) :
    envelope g.N (drive (bpSys g w M Mt G GT) x u) r =
      drive (cplx g) (envelope g.N x) (envelope g.L u) r + Complex.I * w * envelope g.N x r := by
  have hA := bpA_sum (RingHom.id ℝ) g w x r hr
  have hB := stack2_sum (RingHom.id ℝ) Sys.N Sys.L Sys.B g u r hr
  simp only [RingHom.id_apply] at hA hB
  unfold envelope drive bpSys cplx cm
  dsimp only
  rw [hA.1, hA.2, hB.1, hB.2]
  push_cast
  have s1 : ∑ c ∈ range g.N, (g.A r c : ℂ) * (x c + Complex.I * x (g.N + c)) =
      (∑ c ∈ range g.N, (g.A r c : ℂ) * x c) + Complex.I * ∑ c ∈ range g.N, (g.A r c : ℂ) * x (g.N + c) := by
    rw [mul_sum, ← sum_add_distrib]
    exact sum_congr rfl fun c _ => by ring
  have s2 : ∑ c ∈ range g.L, (g.B r c : ℂ) * (u c + Complex.I * u (g.L + c)) =
      (∑ c ∈ range g.L, (g.B r c : ℂ) * u c) + Complex.I * ∑ c ∈ range g.L, (g.B r c : ℂ) * u (g.L + c) := by
    rw [mul_sum, ← sum_add_distrib]
    exact sum_congr rfl fun c _ => by ring
  rw [s1, s2]
  linear_combination (-(w : ℂ) * x (g.N + r)) * Complex.I_mul_I

/-- the rotated envelope of a trajectory -/
theorem demod_deriv (w : ℝ) (n : ℕ) (x : ℝ → ℕ → ℝ) (d : ℕ → ℝ) (t : ℝ) (r : ℕ)
    (h1 : HasDerivAt (fun t => x t r) (d r) t) (h2 : HasDerivAt (fun t => x t (n + r)) (d (n + r)) t) :
    HasDerivAt (fun t => demod w n x t r)
      (Complex.exp (-(Complex.I * w) * t) * (envelope n d r - Complex.I * w * envelope n (x t) r)) t := by
  have e : HasDerivAt (fun t : ℝ => Complex.exp (-(Complex.I * w) * t))
      (Complex.exp (-(Complex.I * w) * t) * (-(Complex.I * w) * 1)) t := by
    have : HasDerivAt (fun t : ℝ => (-(Complex.I * w) * (t : ℂ))) (-(Complex.I * w) * 1) t :=
      (Complex.ofRealCLM.hasDerivAt (x := t)).const_mul _
    exact this.cexp
  have h := e.mul (h1.ofReal_comp.add (h2.ofReal_comp.const_mul Complex.I))
  refine h.congr_deriv ?_
  simp only [envelope, Pi.add_apply]
  ring

theorem demod_sum (w : ℝ) (n m : ℕ) (F : ℕ → ℂ) (x : ℝ → ℕ → ℝ) (t : ℝ) :
    ∑ c ∈ range m, F c * demod w n x t c =
      Complex.exp (-(Complex.I * w) * t) * ∑ c ∈ range m, F c * envelope n (x t) c := by
  rw [mul_sum]
  exact sum_congr rfl fun c _ => by unfold demod; ring

/-- **C84** the state of a frontend built by `get_bandpass(..., modulate)`, taken as a complex envelope and rotated back by
the carrier, moves like the state of the baseband system driven by the rotated-back input and controls. -/
theorem C84_demodulated (fe : Frontend) (fc : ℝ) (G : ℕ → ℕ → ℝ) (hG : fe.sys.Gamma = some G) (hN : fe.sys.N ≠ 0)
    (hM : fe.sys.M ≠ 0) :
    ∃ be, bandpass { frontend := some fe, fc := some fc, modulate := true } = .ok be ∧ be.sys.N = 2 * fe.sys.N ∧
      be.sys.L = 2 * fe.sys.L ∧ be.sys.M = 2 * fe.sys.M ∧ be.dc.T = fe.dc.T ∧ be.M = 2 * fe.M ∧
      ∀ (x u s : ℝ → ℕ → ℝ) (t : ℝ),
        (∀ r < be.sys.N, HasDerivAt (fun t => x t r) (rhs be.sys (x t) (u t) (s t) r) t) →
        ∀ r < fe.sys.N, HasDerivAt (fun t => demod (2 * Real.pi * fc) fe.sys.N x t r)
          (rhs (cplx fe.sys) (demod (2 * Real.pi * fc) fe.sys.N x t) (demod (2 * Real.pi * fc) fe.sys.L u t)
            (demod (2 * Real.pi * fc) fe.sys.M s t) r) t := by
  refine ⟨_, bandpass_mod fe fc none none false G hG hN hM (by simp), (two_mul _).symm, (two_mul _).symm, (two_mul _).symm, rfl, rfl, ?_⟩
  intro x u s t hx r hr
  obtain ⟨w, hw⟩ : ∃ w, w = 2 * Real.pi * fc := ⟨_, rfl⟩
  rw [← hw] at hx ⊢
  simp only [Bool.false_eq_true, if_false, id_eq] at hx
  have h1 := hx r (by change r < fe.sys.N + fe.sys.N; omega)
  have h2 := hx (fe.sys.N + r) (by change fe.sys.N + r < fe.sys.N + fe.sys.N; omega)
  have h := demod_deriv w fe.sys.N x _ t r h1 h2
  refine h.congr_deriv ?_
  have hd := bp_drive fe.sys w (fe.sys.M + fe.sys.M) (fe.sys.Mt + fe.sys.Mt)
    (stackMat Sys.N Sys.M (fun g => optBlock g.Gamma) [fe.sys, fe.sys])
    (stackMat Sys.Mt Sys.N (fun g => optBlock g.GammaT) [fe.sys, fe.sys]) (x t) (u t) r hr
  have hc := stack2_sum (RingHom.id ℝ) Sys.N Sys.M (fun g => optBlock g.Gamma) fe.sys (s t) r hr
  simp only [RingHom.id_apply] at hc
  have hs : envelope fe.sys.N (rhs (bpSys fe.sys w (fe.sys.M + fe.sys.M) (fe.sys.Mt + fe.sys.Mt)
        (stackMat Sys.N Sys.M (fun g => optBlock g.Gamma) [fe.sys, fe.sys])
        (stackMat Sys.Mt Sys.N (fun g => optBlock g.GammaT) [fe.sys, fe.sys])) (x t) (u t) (s t)) r =
      drive (cplx fe.sys) (envelope fe.sys.N (x t)) (envelope fe.sys.L (u t)) r +
        Complex.I * w * envelope fe.sys.N (x t) r +
        ∑ c ∈ range fe.sys.M, (G r c : ℂ) * envelope fe.sys.M (s t) c := by
    rw [← hd]
    have e1 : ∀ q, rhs (bpSys fe.sys w (fe.sys.M + fe.sys.M) (fe.sys.Mt + fe.sys.Mt)
        (stackMat Sys.N Sys.M (fun g => optBlock g.Gamma) [fe.sys, fe.sys])
        (stackMat Sys.Mt Sys.N (fun g => optBlock g.GammaT) [fe.sys, fe.sys])) (x t) (u t) (s t) q =
        drive (bpSys fe.sys w (fe.sys.M + fe.sys.M) (fe.sys.Mt + fe.sys.Mt)
        (stackMat Sys.N Sys.M (fun g => optBlock g.Gamma) [fe.sys, fe.sys])
        (stackMat Sys.Mt Sys.N (fun g => optBlock g.GammaT) [fe.sys, fe.sys])) (x t) (u t) q +
        ∑ c ∈ range (fe.sys.M + fe.sys.M), stackMat Sys.N Sys.M (fun g => optBlock g.Gamma) [fe.sys, fe.sys] q c *
          s t c := fun q => rfl
    unfold envelope
    rw [e1, e1, hc.1, hc.2, hG]
    have s1 : ∑ c ∈ range fe.sys.M, (G r c : ℂ) * (s t c + Complex.I * s t (fe.sys.M + c)) =
        (∑ c ∈ range fe.sys.M, (G r c : ℂ) * s t c) +
          Complex.I * ∑ c ∈ range fe.sys.M, (G r c : ℂ) * s t (fe.sys.M + c) := by
      rw [mul_sum, ← sum_add_distrib]
      exact sum_congr rfl fun c _ => by ring
    rw [s1]
    unfold optBlock
    push_cast
    ring
  rw [hs]
  unfold rhs drive cplx cm
  dsimp only
  rw [hG]
  dsimp only [Option.map]
  rw [demod_sum, demod_sum, demod_sum]
  ring

theorem env_sum (n m : ℕ) (F : ℕ → ℝ) (x : ℕ → ℝ) :
    ∑ c ∈ range m, (F c : ℂ) * envelope n x c =
      (∑ c ∈ range m, (F c : ℂ) * x c) + Complex.I * ∑ c ∈ range m, (F c : ℂ) * x (n + c) := by
  rw [mul_sum, ← sum_add_distrib]
  exact sum_congr rfl fun c _ => by unfold envelope; ring

/-- **C84 (part that holds)** outputs and control observations of the bandpass frontend are those of the baseband system on
the complex envelopes, if the baseband system passes nothing directly from its input. -/
theorem C84_observations_partial (fe : Frontend) (fc : ℝ) (G : ℕ → ℕ → ℝ) (hG : fe.sys.Gamma = some G) (hN : fe.sys.N ≠ 0)
    (hM : fe.sys.M ≠ 0) (hD : ∀ r < fe.sys.Nt, ∀ c < fe.sys.L, fe.sys.D r c = 0)
    (hBt : ∀ r < fe.sys.Mt, ∀ c < fe.sys.L, fe.sys.Bt r c = 0) :
    ∃ be, bandpass { frontend := some fe, fc := some fc, modulate := true } = .ok be ∧ be.sys.Nt = 2 * fe.sys.Nt ∧
      be.sys.Mt = 2 * fe.sys.Mt ∧ ∀ x u s : ℕ → ℝ,
        (∀ r < fe.sys.Nt, envelope fe.sys.Nt (outp be.sys x u) r =
          outp (cplx fe.sys) (envelope fe.sys.N x) (envelope fe.sys.L u) r) ∧
        (∀ r < fe.sys.Mt, envelope fe.sys.Mt (cObs be.sys x u s) r =
          cObs (cplx fe.sys) (envelope fe.sys.N x) (envelope fe.sys.L u) (envelope fe.sys.M s) r) := by
  refine ⟨_, bandpass_mod fe fc none none false G hG hN hM (by simp), (two_mul _).symm, (two_mul _).symm, ?_⟩
  intro x u s
  constructor
  · intro r hr
    have h := stack2_sum (RingHom.id ℝ) Sys.Nt Sys.N Sys.CT fe.sys x r hr
    simp only [RingHom.id_apply] at h
    rw [if_neg (by simp), id_eq]
    unfold envelope outp bpSys cplx cm
    dsimp only
    rw [h.1, h.2]
    simp only [zero_mul, sum_const_zero, add_zero]
    change _ = (∑ c ∈ range fe.sys.N, (fe.sys.CT r c : ℂ) * envelope fe.sys.N x c) + _
    rw [env_sum, sum_eq_zero (s := range fe.sys.L), add_zero]
    · push_cast
      rfl
    · intro c hc
      rw [hD r hr c (mem_range.1 hc), Complex.ofReal_zero, zero_mul]
  · intro r hr
    have h := stack2_sum (RingHom.id ℝ) Sys.Mt Sys.N (fun g => optBlock g.GammaT) fe.sys x r hr
    have h' := stack2_sum (RingHom.id ℝ) Sys.Mt Sys.M Sys.At fe.sys s r hr
    simp only [RingHom.id_apply] at h h'
    rw [if_neg (by simp), id_eq]
    have hz : ∑ c ∈ range fe.sys.L, (fe.sys.Bt r c : ℂ) * envelope fe.sys.L u c = 0 :=
      sum_eq_zero fun c hc => by rw [hBt r hr c (mem_range.1 hc), Complex.ofReal_zero, zero_mul]
    have e : cObs (cplx fe.sys) (envelope fe.sys.N x) (envelope fe.sys.L u) (envelope fe.sys.M s) r =
        (∑ c ∈ range fe.sys.N, ((optBlock fe.sys.GammaT r c : ℝ) : ℂ) * envelope fe.sys.N x c) +
          ∑ c ∈ range fe.sys.M, (fe.sys.At r c : ℂ) * envelope fe.sys.M s c := by
      rw [← add_zero (∑ c ∈ range fe.sys.N, ((optBlock fe.sys.GammaT r c : ℝ) : ℂ) * envelope fe.sys.N x c), ← hz]
      unfold cObs cplx cm optBlock
      cases fe.sys.GammaT with
      | none => simp
      | some g => rfl
    rw [e, env_sum, env_sum]
    unfold envelope cObs bpSys
    dsimp only
    rw [h.1, h.2, h'.1, h'.2]
    simp only [zero_mul, sum_const_zero, add_zero]
    push_cast
    ring

/-- amplitude vector of a signal and its quadrature (specification) -/
noncomputable def quad (n : ℕ) (u : ℕ → ℂ) : ℕ → ℂ := fun i => if i < n then u i else -Complex.I * u (i - n)

theorem quad_lo (n : ℕ) (u : ℕ → ℂ) (i : ℕ) (h : i < n) : quad n u i = u i := if_pos h

theorem quad_hi (n : ℕ) (u : ℕ → ℂ) (i : ℕ) : quad n u (n + i) = -Complex.I * u i := by
  unfold quad
  rw [if_neg (by omega), Nat.add_sub_cancel_left]

/-- **C84 (part that holds)** the transfer function of the bandpass frontend is the baseband one moved up by the carrier:
what the baseband system transfers at the complex frequency `s` the bandpass system transfers at `s + i omega`, for signals
and their quadratures. -/
theorem C84_transfer_partial (fe : Frontend) (fc : ℝ) (G : ℕ → ℕ → ℝ) (hG : fe.sys.Gamma = some G) (hN : fe.sys.N ≠ 0)
    (hM : fe.sys.M ≠ 0) (hD : ∀ r < fe.sys.Nt, ∀ c < fe.sys.L, fe.sys.D r c = 0) :
    ∃ be, bandpass { frontend := some fe, fc := some fc, modulate := true } = .ok be ∧ ∀ (s : ℂ) (u y : ℕ → ℂ),
      Transfers (cplx fe.sys) s u y →
        Transfers (cplx be.sys) (s + Complex.I * (2 * Real.pi * fc : ℝ)) (quad fe.sys.L u) (quad fe.sys.Nt y) := by
  refine ⟨_, bandpass_mod fe fc none none false G hG hN hM (by simp), ?_⟩
  obtain ⟨w, hw⟩ : ∃ w, w = 2 * Real.pi * fc := ⟨_, rfl⟩
  rw [← hw, if_neg (by simp), id_eq]
  rintro s u y ⟨x, hx, hy⟩
  refine ⟨quad fe.sys.N x, ?_, ?_⟩
  · intro r hr
    change r < fe.sys.N + fe.sys.N at hr
    have key : ∀ q < fe.sys.N,
        ((∑ c ∈ range (fe.sys.N + fe.sys.N), (cplx (bpSys fe.sys w 0 0 G G)).A q c * quad fe.sys.N x c) +
          (∑ c ∈ range (fe.sys.L + fe.sys.L), (cplx (bpSys fe.sys w 0 0 G G)).B q c * quad fe.sys.L u c) =
          (s + Complex.I * w) * x q) ∧
        ((∑ c ∈ range (fe.sys.N + fe.sys.N), (cplx (bpSys fe.sys w 0 0 G G)).A (fe.sys.N + q) c * quad fe.sys.N x c) +
          (∑ c ∈ range (fe.sys.L + fe.sys.L), (cplx (bpSys fe.sys w 0 0 G G)).B (fe.sys.N + q) c * quad fe.sys.L u c) =
          (s + Complex.I * w) * (-Complex.I * x q)) := by
      intro q hq
      have hA := bpA_sum Complex.ofRealHom fe.sys w (quad fe.sys.N x) q hq
      have hB := stack2_sum Complex.ofRealHom Sys.N Sys.L Sys.B fe.sys (quad fe.sys.L u) q hq
      have h0 := hx q hq
      change s * x q = (∑ c ∈ range fe.sys.N, (fe.sys.A q c : ℂ) * x c) + ∑ c ∈ range fe.sys.L, (fe.sys.B q c : ℂ) * u c at h0
      have q1 : ∑ c ∈ range fe.sys.N, Complex.ofRealHom (fe.sys.A q c) * quad fe.sys.N x c =
          ∑ c ∈ range fe.sys.N, (fe.sys.A q c : ℂ) * x c :=
        sum_congr rfl fun c hc => by rw [quad_lo _ _ _ (mem_range.1 hc)]; rfl
      have q2 : ∑ c ∈ range fe.sys.L, Complex.ofRealHom (fe.sys.B q c) * quad fe.sys.L u c =
          ∑ c ∈ range fe.sys.L, (fe.sys.B q c : ℂ) * u c :=
        sum_congr rfl fun c hc => by rw [quad_lo _ _ _ (mem_range.1 hc)]; rfl
      have q3 : ∑ c ∈ range fe.sys.N, Complex.ofRealHom (fe.sys.A q c) * quad fe.sys.N x (fe.sys.N + c) =
          -Complex.I * ∑ c ∈ range fe.sys.N, (fe.sys.A q c : ℂ) * x c := by
        rw [mul_sum]
        exact sum_congr rfl fun c _ => by rw [quad_hi]; simp only [Complex.ofRealHom_eq_coe]; ring
      have q4 : ∑ c ∈ range fe.sys.L, Complex.ofRealHom (fe.sys.B q c) * quad fe.sys.L u (fe.sys.L + c) =
          -Complex.I * ∑ c ∈ range fe.sys.L, (fe.sys.B q c : ℂ) * u c := by
        rw [mul_sum]
        exact sum_congr rfl fun c _ => by rw [quad_hi]; simp only [Complex.ofRealHom_eq_coe]; ring
      rw [q1, quad_hi] at hA
      rw [q3, quad_lo _ _ _ hq] at hA
      rw [q2, q4] at hB
      simp only [Complex.ofRealHom_eq_coe] at hA hB
      change ((∑ c ∈ range (fe.sys.N + fe.sys.N), _) + (∑ c ∈ range (fe.sys.L + fe.sys.L), _) = _) ∧
        ((∑ c ∈ range (fe.sys.N + fe.sys.N), _) + (∑ c ∈ range (fe.sys.L + fe.sys.L), _) = _)
      unfold cplx cm bpSys
      dsimp only
      rw [hA.1, hA.2, hB.1, hB.2]
      constructor
      · linear_combination -h0
      · linear_combination Complex.I * h0 + w * x q * Complex.I_mul_I
    by_cases h : r < fe.sys.N
    · rw [quad_lo _ _ _ h]
      exact (key r h).1.symm
    · obtain ⟨q, rfl⟩ := Nat.exists_eq_add_of_le (Nat.not_lt.1 h)
      rw [quad_hi]
      exact (key q (by omega)).2.symm
  · intro r hr
    change r < fe.sys.Nt + fe.sys.Nt at hr
    have key : ∀ q < fe.sys.Nt,
        (∑ c ∈ range (fe.sys.N + fe.sys.N), (cplx (bpSys fe.sys w 0 0 G G)).CT q c * quad fe.sys.N x c = y q) ∧
        (∑ c ∈ range (fe.sys.N + fe.sys.N), (cplx (bpSys fe.sys w 0 0 G G)).CT (fe.sys.Nt + q) c * quad fe.sys.N x c =
          -Complex.I * y q) := by
      intro q hq
      have hC := stack2_sum Complex.ofRealHom Sys.Nt Sys.N Sys.CT fe.sys (quad fe.sys.N x) q hq
      have h0 := hy q hq
      change y q = (∑ c ∈ range fe.sys.N, (fe.sys.CT q c : ℂ) * x c) + ∑ c ∈ range fe.sys.L, (fe.sys.D q c : ℂ) * u c at h0
      rw [sum_eq_zero (s := range fe.sys.L) (fun c hc => by
        rw [hD q hq c (mem_range.1 hc), Complex.ofReal_zero, zero_mul]), add_zero] at h0
      have q1 : ∑ c ∈ range fe.sys.N, Complex.ofRealHom (fe.sys.CT q c) * quad fe.sys.N x c = y q := by
        rw [h0]
        exact sum_congr rfl fun c hc => by rw [quad_lo _ _ _ (mem_range.1 hc)]; rfl
      have q3 : ∑ c ∈ range fe.sys.N, Complex.ofRealHom (fe.sys.CT q c) * quad fe.sys.N x (fe.sys.N + c) =
          -Complex.I * y q := by
        rw [h0, mul_sum]
        exact sum_congr rfl fun c _ => by rw [quad_hi]; simp only [Complex.ofRealHom_eq_coe]; ring
      rw [q1, q3] at hC
      exact hC
    have hz : ∀ q, ∑ c ∈ range (fe.sys.L + fe.sys.L), (cplx (bpSys fe.sys w 0 0 G G)).D q c * quad fe.sys.L u c = 0 := by
      intro q
      refine sum_eq_zero fun c _ => ?_
      unfold cplx cm bpSys
      simp
    by_cases h : r < fe.sys.Nt
    · rw [quad_lo _ _ _ h]
      exact ((congrArg₂ (· + ·) (key r h).1 (hz r)).trans (add_zero _)).symm
    · obtain ⟨q, rfl⟩ := Nat.exists_eq_add_of_le (Nat.not_lt.1 h)
      rw [quad_hi]
      exact ((congrArg₂ (· + ·) (key q (by omega)).2 (hz _)).trans (add_zero _)).symm

/-- **C84** with `scalar_input` a baseband frontend with one input gives one with one input, which acts like the two inputs of
the frontend without that option driven by the input and its negative (with and without `modulate`). -/
theorem C84_scalar (fe : Frontend) (fc : ℝ) (phi delta : Option ℝ) (G : ℕ → ℕ → ℝ) (hG : fe.sys.Gamma = some G)
    (hN : fe.sys.N ≠ 0) (hM : fe.sys.M ≠ 0) (hL : fe.sys.L = 1) :
    (∃ be be', bandpass { frontend := some fe, fc := some fc, phi := phi, deltaDC := delta, modulate := true } = .ok be ∧
      bandpass { frontend := some fe, fc := some fc, phi := phi, deltaDC := delta, modulate := true, scalarInput := true } =
        .ok be' ∧ be.sys.L = 2 ∧ be'.sys.L = 1 ∧ be'.sys.N = be.sys.N ∧
      ∀ x u s, ∀ r < be.sys.N, rhs be'.sys x u s r = rhs be.sys x (fun i => if i = 0 then u 0 else -u 0) s r) ∧
    (fe.sys.M = fe.sys.N → fe.sys.Mt = fe.sys.N → Real.sin (2 * Real.pi * fc * fe.dc.T / 2) ≠ 0 → G 0 0 * fe.dc.T ≠ 0 →
      ∃ be be', bandpass { frontend := some fe, fc := some fc, phi := phi, deltaDC := delta } = .ok be ∧
      bandpass { frontend := some fe, fc := some fc, phi := phi, deltaDC := delta, scalarInput := true } = .ok be' ∧
      be.sys.L = 2 ∧ be'.sys.L = 1 ∧ be'.sys.N = be.sys.N ∧
      ∀ x u s, ∀ r < be.sys.N, rhs be'.sys x u s r = rhs be.sys x (fun i => if i = 0 then u 0 else -u 0) s r) := by
  have key : ∀ (w : ℝ) (M Mt : ℕ) (P Q : ℕ → ℕ → ℝ) (x u s : ℕ → ℝ), ∀ r < fe.sys.N + fe.sys.N,
      rhs (scalarIn (bpSys fe.sys w M Mt P Q)) x u s r =
        rhs (bpSys fe.sys w M Mt P Q) x (fun i => if i = 0 then u 0 else -u 0) s r := by
    intro w M Mt P Q x u s r hr
    obtain ⟨h1, h2, h3, h4⟩ := stack2 Sys.N Sys.L Sys.B fe.sys
    unfold rhs scalarIn bpSys
    dsimp only
    rw [hL]
    rw [hL] at h1 h2 h3 h4
    simp only [sum_range_succ, sum_range_zero, zero_add, Nat.reduceAdd, if_true, one_ne_zero, if_false]
    by_cases h : r < fe.sys.N
    · rw [if_neg (by omega), h2 r h 1 (by omega)]
      ring
    · obtain ⟨q, rfl⟩ := Nat.exists_eq_add_of_le (Nat.not_lt.1 h)
      rw [if_pos (by omega), h3 q 0 (by omega)]
      ring
  constructor
  · refine ⟨_, _, bandpass_mod fe fc phi delta false G hG hN hM (by simp),
      bandpass_mod fe fc phi delta true G hG hN hM (by omega), ?_, rfl, rfl, fun x u s r hr => key _ _ _ _ _ x u s r hr⟩
    change fe.sys.L + fe.sys.L = 2
    omega
  · intro h1 h2 h3 h4
    refine ⟨_, _, bandpass_ctl fe fc phi delta false G hG hN h1 h2 h3 h4 (by simp),
      bandpass_ctl fe fc phi delta true G hG hN h1 h2 h3 h4 (by omega), ?_, rfl, rfl,
      fun x u s r hr => key _ _ _ _ _ x u s r hr⟩
    change fe.sys.L + fe.sys.L = 2
    omega

/-! ### C85: the control of bandpass frontends -/

/-- the control of the default mode acts on the envelopes as one complex number, and observes them through another one -/
theorem rot_env (N : ℕ) (p q : ℝ) (x : ℕ → ℝ) (r : ℕ) (hr : r < N) :
    envelope N (fun r => ∑ c ∈ range (N + N), rotBlocks N p q r c * x c) r = ((p : ℂ) + Complex.I * q) * envelope N x r := by
  have h := rot_sum (RingHom.id ℝ) N p q x r hr
  simp only [RingHom.id_apply] at h
  unfold envelope
  rw [← two_mul]
  dsimp only
  rw [h.1, h.2]
  push_cast
  linear_combination (-(q : ℂ) * x (N + r)) * Complex.I_mul_I

theorem cis (a : ℝ) : (Real.cos a : ℂ) + Complex.I * Real.sin a = Complex.exp (Complex.I * a) := by
  rw [mul_comm Complex.I (a : ℂ), Complex.exp_mul_I, Complex.ofReal_cos, Complex.ofReal_sin]
  ring

/-- what a held decision adds over one period -/
theorem held (b T w φ : ℝ) (hs : Real.sin (w * T / 2) ≠ 0) (s : ℂ) :
    ((b * T * w / (2 * Real.sin (w * T / 2)) * Real.cos φ : ℝ) +
        Complex.I * (b * T * w / (2 * Real.sin (w * T / 2)) * Real.sin φ : ℝ)) * s *
      ((Complex.exp (Complex.I * w * T) - 1) / (Complex.I * w)) =
      b * T * Complex.exp (Complex.I * (φ + w * T / 2 : ℝ)) * s := by
  have hw : (w : ℂ) ≠ 0 := by
    intro h
    rw [Complex.ofReal_eq_zero] at h
    rw [h, zero_mul, zero_div, Real.sin_zero] at hs
    exact hs rfl
  have hsc : (Real.sin (w * T / 2) : ℂ) ≠ 0 := Complex.ofReal_ne_zero.2 hs
  have e1 : ((b * T * w / (2 * Real.sin (w * T / 2)) * Real.cos φ : ℝ) +
        Complex.I * (b * T * w / (2 * Real.sin (w * T / 2)) * Real.sin φ : ℝ) : ℂ) =
      b * T * w / (2 * Real.sin (w * T / 2)) * Complex.exp (Complex.I * φ) := by
    rw [← cis]
    push_cast
    ring
  have e2 : Complex.exp (Complex.I * w * T) - 1 =
      Complex.exp (Complex.I * (w * T / 2 : ℝ)) * (2 * Complex.I * Real.sin (w * T / 2)) := by
    have a1 : Complex.I * w * T = Complex.I * (w * T / 2 : ℝ) + Complex.I * (w * T / 2 : ℝ) := by
      push_cast
      ring
    rw [a1, Complex.exp_add, ← cis]
    have h : (Real.cos (w * T / 2) : ℂ) ^ 2 + (Real.sin (w * T / 2) : ℂ) ^ 2 = 1 := by
      exact_mod_cast Real.cos_sq_add_sin_sq (w * T / 2)
    linear_combination h - (Real.sin (w * T / 2) : ℂ) ^ 2 * Complex.I_mul_I
  have e3 : Complex.exp (Complex.I * (φ + w * T / 2 : ℝ)) =
      Complex.exp (Complex.I * φ) * Complex.exp (Complex.I * (w * T / 2 : ℝ)) := by
    rw [← Complex.exp_add]
    congr 1
    push_cast
    ring
  rw [e1, e2, e3]
  field_simp

/-- `x` moves through the system with input `u` and held decisions `s` from `a` to `b` (specification) -/
def Follows (g : Sys ℝ) (x u : ℝ → ℕ → ℝ) (s : ℕ → ℝ) (a b : ℝ) : Prop :=
  (∀ r < g.N, ContinuousOn (fun t => x t r) (Set.Icc a b)) ∧
    ∀ t ∈ Set.Ico a b, ∀ r < g.N, HasDerivWithinAt (fun t => x t r) (rhs g (x t) (u t) s r) (Set.Ici t) t

/-- the envelope of the derivative in the default mode -/
theorem ctl_rhs (g : Sys ℝ) (w p q : ℝ) (GT : ℕ → ℕ → ℝ) (x u s : ℕ → ℝ) (r : ℕ) (hr : r < g.N) :
    envelope g.N (rhs (bpSys g w (g.N + g.N) (g.N + g.N) (rotBlocks g.N p q) GT) x u s) r =
      Complex.I * w * envelope g.N x r + ((p : ℂ) + Complex.I * q) * envelope g.N s r +
        drive (cplx g) (envelope g.N x) (envelope g.L u) r := by
  have h1 := bp_drive g w (g.N + g.N) (g.N + g.N) (rotBlocks g.N p q) GT x u r hr
  have h2 := rot_env g.N p q s r hr
  have e : ∀ k, rhs (bpSys g w (g.N + g.N) (g.N + g.N) (rotBlocks g.N p q) GT) x u s k =
      drive (bpSys g w (g.N + g.N) (g.N + g.N) (rotBlocks g.N p q) GT) x u k +
        ∑ c ∈ range (g.N + g.N), rotBlocks g.N p q k c * s c := fun _ => rfl
  rw [add_comm _ (drive _ _ _ _), ← add_assoc, ← h1, ← h2]
  unfold envelope
  rw [e, e]
  push_cast
  ring

theorem env_deriv (n : ℕ) (x : ℝ → ℕ → ℝ) (d : ℕ → ℝ) (t : ℝ) (S : Set ℝ) (r : ℕ)
    (h1 : HasDerivWithinAt (fun t => x t r) (d r) S t) (h2 : HasDerivWithinAt (fun t => x t (n + r)) (d (n + r)) S t) :
    HasDerivWithinAt (fun t => envelope n (x t) r) (envelope n d r) S t :=
  h1.ofReal_comp.add (h2.ofReal_comp.const_mul Complex.I)

theorem env_cont (n : ℕ) (x : ℝ → ℕ → ℝ) (S : Set ℝ) (r : ℕ)
    (h1 : ContinuousOn (fun t => x t r) S) (h2 : ContinuousOn (fun t => x t (n + r)) S) :
    ContinuousOn (fun t => envelope n (x t) r) S :=
  (Complex.continuous_ofReal.comp_continuousOn h1).add
    (continuousOn_const.mul (Complex.continuous_ofReal.comp_continuousOn h2))

/-- **C85** over one period a held decision moves every state by the control gain times the period, at the phase in the middle
of the period: two movements of a state under the same drive from the rest of the baseband system differ by exactly that. -/
theorem C85_period (fe : Frontend) (fc φ δ : ℝ) (G : ℕ → ℕ → ℝ) (hG : fe.sys.Gamma = some G)
    (hN : fe.sys.N ≠ 0) (hM : fe.sys.M = fe.sys.N) (hMt : fe.sys.Mt = fe.sys.N) (hT : 0 ≤ fe.dc.T)
    (hs : Real.sin (2 * Real.pi * fc * fe.dc.T / 2) ≠ 0) (hb : G 0 0 * fe.dc.T ≠ 0) :
    ∃ be, bandpass { frontend := some fe, fc := some fc, phi := some φ, deltaDC := some δ } = .ok be ∧
      be.sys.N = 2 * fe.sys.N ∧ be.sys.M = 2 * fe.sys.N ∧ be.dc.T = fe.dc.T ∧
      ∀ x u s x' u' s' a, Follows be.sys x u s a (a + fe.dc.T) → Follows be.sys x' u' s' a (a + fe.dc.T) →
        ∀ r < fe.sys.N, (∀ t ∈ Set.Ico a (a + fe.dc.T),
          drive (cplx fe.sys) (envelope fe.sys.N (x t)) (envelope fe.sys.L (u t)) r =
            drive (cplx fe.sys) (envelope fe.sys.N (x' t)) (envelope fe.sys.L (u' t)) r) →
        envelope fe.sys.N (x' (a + fe.dc.T)) r - envelope fe.sys.N (x (a + fe.dc.T)) r =
          Complex.exp (Complex.I * (2 * Real.pi * fc * fe.dc.T : ℝ)) *
            (envelope fe.sys.N (x' a) r - envelope fe.sys.N (x a) r) +
          G 0 0 * fe.dc.T * Complex.exp (Complex.I * (φ + 2 * Real.pi * fc * fe.dc.T / 2 : ℝ)) *
            (envelope fe.sys.N s' r - envelope fe.sys.N s r) := by
  refine ⟨_, bandpass_ctl fe fc (some φ) (some δ) false G hG hN hM hMt hs hb (by simp), (two_mul _).symm, (two_mul _).symm,
    rfl, ?_⟩
  intro x u s x' u' s' a hx hx' r hr hd
  simp only [Bool.false_eq_true, if_false, id_eq, Option.getD_some] at hx hx'
  obtain ⟨w, hw⟩ : ∃ w, w = 2 * Real.pi * fc := ⟨_, rfl⟩
  rw [← hw] at hx hx' hs ⊢
  have hwn : w ≠ 0 := by
    rintro rfl
    rw [zero_mul, zero_div, Real.sin_zero] at hs
    exact hs rfl
  have r1 : r < fe.sys.N + fe.sys.N := by omega
  have r2 : fe.sys.N + r < fe.sys.N + fe.sys.N := by omega
  have h := rotating_bound w hwn
    (((G 0 0 * fe.dc.T * w / (2 * Real.sin (w * fe.dc.T / 2)) * Real.cos φ : ℝ) +
        Complex.I * (G 0 0 * fe.dc.T * w / (2 * Real.sin (w * fe.dc.T / 2)) * Real.sin φ : ℝ)) *
      (envelope fe.sys.N s' r - envelope fe.sys.N s r))
    (fun t => envelope fe.sys.N (x' t) r - envelope fe.sys.N (x t) r) (fun _ => 0) a (a + fe.dc.T) 0 (by linarith)
    ((env_cont _ _ _ _ (hx'.1 r r1) (hx'.1 _ r2)).sub (env_cont _ _ _ _ (hx.1 r r1) (hx.1 _ r2)))
    (by
      intro t ht
      have h1 := env_deriv fe.sys.N x _ t _ r (hx.2 t ht r r1) (hx.2 t ht _ r2)
      have h2 := env_deriv fe.sys.N x' _ t _ r (hx'.2 t ht r r1) (hx'.2 t ht _ r2)
      refine (h2.sub h1).congr_deriv ?_
      rw [ctl_rhs _ _ _ _ _ _ _ _ _ hr, ctl_rhs _ _ _ _ _ _ _ _ _ hr, hd t ht]
      ring)
    (fun t _ => by rw [norm_zero])
  rw [zero_mul, norm_le_zero_iff, sub_eq_zero] at h
  rw [h, add_sub_cancel_left, held _ _ _ _ hs]
  congr 3
  push_cast
  ring

/-- **C85** the designed delay: if no decision acts for a time `d` after sampling the control observation and then a decision
equal to the observation is held for one period, an undriven state ends up turned and scaled by the mismatch between the
designed and the actual delay; with the designed delay it is cancelled. -/
theorem C85_delay (fe : Frontend) (fc φ δ : ℝ) (G : ℕ → ℕ → ℝ) (hG : fe.sys.Gamma = some G)
    (hN : fe.sys.N ≠ 0) (hM : fe.sys.M = fe.sys.N) (hMt : fe.sys.Mt = fe.sys.N) (hT : 0 ≤ fe.dc.T)
    (hs : Real.sin (2 * Real.pi * fc * fe.dc.T / 2) ≠ 0) (hb : G 0 0 * fe.dc.T ≠ 0) :
    ∃ be, bandpass { frontend := some fe, fc := some fc, phi := some φ, deltaDC := some δ } = .ok be ∧
      be.sys.Mt = 2 * fe.sys.N ∧ ∀ x u s a d, 0 ≤ d → Follows be.sys x u (fun _ => 0) a (a + d) →
        Follows be.sys x u s (a + d) (a + d + fe.dc.T) → ∀ r < fe.sys.N,
        (∀ t ∈ Set.Ico a (a + d + fe.dc.T),
          drive (cplx fe.sys) (envelope fe.sys.N (x t)) (envelope fe.sys.L (u t)) r = 0) →
        envelope fe.sys.N s r = envelope fe.sys.N (cObs be.sys (x a) (u a) (fun _ => 0)) r →
        envelope fe.sys.N (x (a + d + fe.dc.T)) r =
            Complex.exp (Complex.I * (2 * Real.pi * fc * (fe.dc.T + d) : ℝ)) *
              (1 - Complex.exp (Complex.I * (2 * Real.pi * fc * (δ - d) : ℝ))) * envelope fe.sys.N (x a) r ∧
          (d = δ → envelope fe.sys.N (x (a + d + fe.dc.T)) r = 0) := by
  refine ⟨_, bandpass_ctl fe fc (some φ) (some δ) false G hG hN hM hMt hs hb (by simp), (two_mul _).symm, ?_⟩
  intro x u s a d hd0 hx0 hx r hr hd hobs
  simp only [Bool.false_eq_true, if_false, id_eq, Option.getD_some] at hx0 hx hobs
  obtain ⟨w, hw⟩ : ∃ w, w = 2 * Real.pi * fc := ⟨_, rfl⟩
  rw [← hw] at hx0 hx hs hobs ⊢
  have hwn : w ≠ 0 := by
    rintro rfl
    rw [zero_mul, zero_div, Real.sin_zero] at hs
    exact hs rfl
  have r1 : r < fe.sys.N + fe.sys.N := by omega
  have r2 : fe.sys.N + r < fe.sys.N + fe.sys.N := by omega
  have z0 : envelope fe.sys.N (fun _ => 0) r = 0 := by unfold envelope; simp
  have h0 := rotating_bound w hwn 0 (fun t => envelope fe.sys.N (x t) r) (fun _ => 0) a (a + d) 0 (by linarith)
    (env_cont _ _ _ _ (hx0.1 r r1) (hx0.1 _ r2))
    (by
      intro t ht
      refine (env_deriv fe.sys.N x _ t _ r (hx0.2 t ht r r1) (hx0.2 t ht _ r2)).congr_deriv ?_
      rw [ctl_rhs _ _ _ _ _ _ _ _ _ hr, hd t ⟨ht.1, by linarith [ht.2]⟩, z0]
      ring)
    (fun t _ => by rw [norm_zero])
  rw [zero_mul, zero_mul, norm_le_zero_iff, sub_eq_zero, add_zero, add_sub_cancel_left] at h0
  have h := rotating_bound w hwn
    (((G 0 0 * fe.dc.T * w / (2 * Real.sin (w * fe.dc.T / 2)) * Real.cos φ : ℝ) +
        Complex.I * (G 0 0 * fe.dc.T * w / (2 * Real.sin (w * fe.dc.T / 2)) * Real.sin φ : ℝ)) * envelope fe.sys.N s r)
    (fun t => envelope fe.sys.N (x t) r) (fun _ => 0) (a + d) (a + d + fe.dc.T) 0 (by linarith)
    (env_cont _ _ _ _ (hx.1 r r1) (hx.1 _ r2))
    (by
      intro t ht
      refine (env_deriv fe.sys.N x _ t _ r (hx.2 t ht r r1) (hx.2 t ht _ r2)).congr_deriv ?_
      rw [ctl_rhs _ _ _ _ _ _ _ _ _ hr, hd t ⟨by linarith [ht.1], ht.2⟩])
    (fun t _ => by rw [norm_zero])
  rw [zero_mul, norm_le_zero_iff, sub_eq_zero, add_sub_cancel_left, held _ _ _ _ hs] at h
  have ho : envelope fe.sys.N s r = -1 / (G 0 0 * fe.dc.T) *
      Complex.exp (Complex.I * (w * (fe.dc.T / 2 + δ) - φ : ℝ)) * envelope fe.sys.N (x a) r := by
    rw [hobs]
    have h3 := rot_env fe.sys.N (-1 / (G 0 0 * fe.dc.T) * Real.cos (w * (fe.dc.T / 2 + δ) - φ))
      (-1 / (G 0 0 * fe.dc.T) * Real.sin (w * (fe.dc.T / 2 + δ) - φ)) (x a) r hr
    rw [← cis]
    refine Eq.trans ?_ (h3.trans ?_)
    · unfold envelope cObs bpSys
      simp
    · push_cast
      ring
  have hbc : (G 0 0 : ℂ) * fe.dc.T ≠ 0 := by exact_mod_cast hb
  have e1 : (G 0 0 : ℂ) * fe.dc.T * Complex.exp (Complex.I * (φ + w * fe.dc.T / 2 : ℝ)) * envelope fe.sys.N s r =
      -(Complex.exp (Complex.I * (w * (fe.dc.T + d) : ℝ)) * Complex.exp (Complex.I * (w * (δ - d) : ℝ))) *
        envelope fe.sys.N (x a) r := by
    rw [ho, ← Complex.exp_add]
    have e2 : Complex.I * (w * (fe.dc.T + d) : ℝ) + Complex.I * (w * (δ - d) : ℝ) =
        Complex.I * (φ + w * fe.dc.T / 2 : ℝ) + Complex.I * (w * (fe.dc.T / 2 + δ) - φ : ℝ) := by
      push_cast
      ring
    rw [e2, Complex.exp_add]
    have h5 : (G 0 0 : ℂ) * fe.dc.T * (-1 / (G 0 0 * fe.dc.T)) = -1 := mul_div_cancel₀ _ hbc
    linear_combination (Complex.exp (Complex.I * (φ + w * fe.dc.T / 2 : ℝ)) *
      Complex.exp (Complex.I * (w * (fe.dc.T / 2 + δ) - φ : ℝ)) * envelope fe.sys.N (x a) r) * h5
  have e3 : Complex.exp (Complex.I * w * fe.dc.T) * Complex.exp (Complex.I * w * d) =
      Complex.exp (Complex.I * (w * (fe.dc.T + d) : ℝ)) := by
    rw [← Complex.exp_add]
    congr 1
    push_cast
    ring
  have main : envelope fe.sys.N (x (a + d + fe.dc.T)) r =
      Complex.exp (Complex.I * (w * (fe.dc.T + d) : ℝ)) *
        (1 - Complex.exp (Complex.I * (w * (δ - d) : ℝ))) * envelope fe.sys.N (x a) r := by
    rw [h, h0, e1, ← mul_assoc, e3]
    ring
  refine ⟨main, ?_⟩
  rintro rfl
  rw [main, sub_self, mul_zero, Complex.ofReal_zero, mul_zero, Complex.exp_zero, sub_self, mul_zero, zero_mul]

/-- **C85** without `modulate` a frontend whose numbers of controls and of control observations are not both its number of
states is rejected. -/
theorem C85_rejected (fe : Frontend) (fc : ℝ) (phi delta : Option ℝ) (sc : Bool)
    (h : fe.sys.M ≠ fe.sys.N ∨ fe.sys.Mt ≠ fe.sys.N) :
    ∃ e, bandpass { frontend := some fe, fc := some fc, phi := phi, deltaDC := delta, scalarInput := sc } = .error e := by
  unfold bandpass
  dsimp only
  cases hg : gamma00 fe.sys with
  | error e => exact ⟨e, rfl⟩
  | ok b =>
    dsimp only
    rw [stack_eq _ (by simp)]
    dsimp only
    rw [if_neg (by simp)]
    unfold bpControl
    by_cases hz : 2 * Real.sin (2 * Real.pi * fc * fe.dc.T / 2) = 0 ∨ b * fe.dc.T = 0
    · rw [if_pos hz]
      exact ⟨_, rfl⟩
    · rw [if_neg hz]
      dsimp only
      rw [dc_bp]
      dsimp only
      by_cases hl : sc = true ∧ total Sys.L [fe.sys, fe.sys] < 2
      · rw [if_pos hl]
        exact ⟨_, rfl⟩
      · rw [if_neg hl]
        generalize hS : Sys.new (K := ℝ) _ _ _ _ _ _ _ _ = S
        cases S with
        | error e => exact ⟨e, rfl⟩
        | ok g =>
          exfalso
          rw [new_ok] at hS
          simp only [checkGamma_ok, checkGammaT_ok, checkOpt_ok, total2, reduceCtorEq, false_and, false_or,
            Option.some.injEq, Arr.mat.injEq] at hS
          obtain ⟨-, ⟨f, ⟨-, h1, -⟩, -⟩, ⟨f', ⟨h2, -⟩, -⟩, -, -, -, -, h3, h4, -⟩ := hS
          omega

/-- a first-order frontend with direct paths to its output and its control observation, and a delayed control -/
noncomputable def exDirect : Frontend :=
  ⟨1, ⟨1, 1, 1, 1, 1, fun _ _ => 0, fun _ _ => 1, fun _ _ => 1, some fun _ _ => 1, some fun _ _ => -1, fun _ _ => 1,
    fun _ _ => 1, fun _ _ => 0⟩, ⟨1, 0, 1 / 2, fun _ => stepResponse 0, fun _ => 0⟩⟩

/-- **C84 is false for direct paths and delayed controls**: `get_bandpass` drops `D`, `B_tilde` and the delay of the digital
control. -/
theorem C84_dropped_false : ∃ fe be, bandpass { frontend := some fe, fc := some 1, modulate := true } = .ok be ∧
    fe.sys = exDirect.sys ∧
    (∃ x u, envelope 1 (outp be.sys x u) 0 ≠ outp (cplx fe.sys) (envelope 1 x) (envelope 1 u) 0) ∧
    (∃ x u s, envelope 1 (cObs be.sys x u s) 0 ≠ cObs (cplx fe.sys) (envelope 1 x) (envelope 1 u) (envelope 1 s) 0) ∧
    be.dc.T = fe.dc.T ∧ be.dc.tDelay ≠ fe.dc.tDelay := by
  refine ⟨exDirect, _, bandpass_mod exDirect 1 none none false (fun _ _ => 1) rfl one_ne_zero one_ne_zero (by simp), rfl,
    ⟨fun _ => 0, fun i => if i = 0 then 1 else 0, ?_⟩, ⟨fun _ => 0, fun i => if i = 0 then 1 else 0, fun _ => 0, ?_⟩, rfl, ?_⟩
  · simp [exDirect, envelope, outp, cplx, cm, bpSys]
  · simp [exDirect, envelope, cObs, cplx, cm, bpSys]
  · change (0 : ℝ) ≠ 1 / 2
    norm_num

example : ∃ be, bandpass { frontend := some exDirect, fc := some 1, modulate := true } = .ok be := by
  obtain ⟨be, h, -⟩ := C84_demodulated exDirect 1 (fun _ _ => 1) rfl one_ne_zero one_ne_zero
  exact ⟨be, h⟩

/-- a leap-frog filter of two integrators with a control each, without direct paths -/
noncomputable def exTwo : Frontend :=
  ⟨2, ⟨2, 1, 2, 2, 1, fun r c => if r = 0 ∧ c = 1 then -1 else if r = 1 ∧ c = 0 then 8 else 0, fun r _ => if r = 0 then 8 else 0,
    fun _ c => if c = 1 then 1 else 0, some fun r c => if r = c then 8 else 0, some fun r c => if r = c then -1 else 0,
    fun _ _ => 0, fun _ _ => 0, fun _ _ => 0⟩, ⟨1 / 16, 0, 0, fun _ => stepResponse 0, fun _ => 0⟩⟩

example : ∃ be, bandpass { frontend := some exTwo, fc := some 3, modulate := true } = .ok be ∧ be.sys.Nt = 2 := by
  obtain ⟨be, h, h1, -⟩ := C84_observations_partial exTwo 3 _ rfl two_ne_zero two_ne_zero (fun _ _ _ _ => rfl)
    (fun _ _ _ _ => rfl)
  exact ⟨be, h, h1⟩

/-- what the first frontend transfers at a frequency the bandpass frontend transfers at the shifted frequency -/
example : ∃ (u y : ℕ → ℂ) (be : Frontend), u 0 ≠ 0 ∧ y 0 ≠ 0 ∧ Transfers (cplx exTwo.sys) 8 u y ∧
    Transfers (cplx be.sys) (8 + Complex.I * (2 * Real.pi * 3 : ℝ)) (quad 1 u) (quad 1 y) := by
  obtain ⟨be, -, h⟩ := C84_transfer_partial exTwo 3 _ rfl two_ne_zero two_ne_zero (fun _ _ _ _ => rfl)
  have ht : Transfers (cplx exTwo.sys) 8 (fun _ => 9) (fun _ => 8) := by
    refine ⟨fun _ => 8, ?_, ?_⟩
    · intro r hr
      change r < 2 at hr
      change (8 : ℂ) * 8 = (∑ c ∈ range 2, cm exTwo.sys.A r c * 8) + ∑ c ∈ range 1, cm exTwo.sys.B r c * 9
      interval_cases r <;> norm_num [exTwo, cm, sum_range_succ]
    · intro r hr
      change r < 1 at hr
      change (8 : ℂ) = (∑ c ∈ range 2, cm exTwo.sys.CT r c * 8) + ∑ c ∈ range 1, cm exTwo.sys.D r c * 9
      interval_cases r
      simp [exTwo, cm, sum_range_succ]
  exact ⟨_, _, be, by norm_num, by norm_num, ht, h _ _ _ ht⟩

example : ∃ be, bandpass { frontend := some exTwo, fc := some 3, modulate := true, scalarInput := true } = .ok be ∧
    be.sys.L = 1 := by
  obtain ⟨⟨be, be', -, h, -, h1, -⟩, -⟩ := C84_scalar exTwo 3 none none _ rfl two_ne_zero two_ne_zero rfl
  exact ⟨be', h, h1⟩

theorem exTwo_sin : Real.sin (2 * Real.pi * 4 * exTwo.dc.T / 2) ≠ 0 := by
  have : 2 * Real.pi * 4 * exTwo.dc.T / 2 = Real.pi / 4 := by
    change 2 * Real.pi * 4 * (1 / 16) / 2 = _
    ring
  rw [this, Real.sin_pi_div_four]
  positivity

theorem exTwo_gain : (fun r c : ℕ => if r = c then (8 : ℝ) else 0) 0 0 * exTwo.dc.T ≠ 0 := by
  change (8 : ℝ) * (1 / 16) ≠ 0
  norm_num

/-- `C85_delay` -/
example : ∃ be, bandpass { frontend := some exTwo, fc := some 4, phi := some 1, deltaDC := some (1 / 64) } = .ok be ∧
    be.sys.M = 4 := by
  obtain ⟨be, h, -, h1, -⟩ := C85_period exTwo 4 1 (1 / 64) _ rfl two_ne_zero rfl rfl (by change (0 : ℝ) ≤ 1 / 16; norm_num)
    exTwo_sin exTwo_gain
  exact ⟨be, h, h1⟩

example : ∃ e, bandpass { frontend := some { exTwo with sys := { exTwo.sys with M := 1 } }, fc := some 4 } = .error e :=
  C85_rejected _ 4 none none false (Or.inl (by decide))

/-! ### the delay is not realised -/

/-- real vector of a complex number -/
def parts (z : ℂ) : ℕ → ℝ := fun i => if i = 0 then z.re else z.im

theorem env_parts (z : ℂ) : envelope 1 (parts z) 0 = z := by
  unfold envelope parts
  rw [if_pos rfl, if_neg (by omega), mul_comm]
  exact Complex.re_add_im z

theorem parts_env (y : ℕ → ℝ) : y 0 = (envelope 1 y 0).re ∧ y 1 = (envelope 1 y 0).im := by
  unfold envelope
  simp

/-- an undriven state of a first-order bandpass frontend under a held decision -/
noncomputable def free (w : ℝ) (k z : ℂ) (t : ℝ) : ℂ :=
  Complex.exp (Complex.I * w * t) * (z + k / (Complex.I * w)) - k / (Complex.I * w)

theorem free_zero (w : ℝ) (k z : ℂ) : free w k z 0 = z := by
  unfold free
  rw [Complex.ofReal_zero, mul_zero, Complex.exp_zero, one_mul]
  ring

theorem free_deriv (w : ℝ) (hw : w ≠ 0) (k z : ℂ) (t : ℝ) :
    HasDerivAt (free w k z) (Complex.I * w * free w k z t + k) t := by
  have hwc : (Complex.I * w : ℂ) ≠ 0 := mul_ne_zero Complex.I_ne_zero (Complex.ofReal_ne_zero.2 hw)
  have h1 : HasDerivAt (fun t : ℝ => (Complex.I * w * (t : ℂ))) (Complex.I * w * 1) t :=
    (Complex.ofRealCLM.hasDerivAt (x := t)).const_mul _
  have h2 := (h1.cexp.mul_const (z + k / (Complex.I * w))).sub_const (k / (Complex.I * w))
  refine h2.congr_deriv ?_
  unfold free
  have hk : Complex.I * w * (k / (Complex.I * w)) = k := mul_div_cancel₀ _ hwc
  linear_combination hk

/-- a first-order frontend: one integrator, one control -/
noncomputable def exOne : Frontend :=
  ⟨1, ⟨1, 1, 1, 1, 1, fun _ _ => 0, fun _ _ => 1, fun _ _ => 1, some fun _ _ => 1, some fun _ _ => -1, fun _ _ => 0,
    fun _ _ => 0, fun _ _ => 0⟩, ⟨1, 0, 0, fun _ => stepResponse 0, fun _ => 0⟩⟩

theorem exOne_sin : Real.sin (2 * Real.pi * (1 / 4) * exOne.dc.T / 2) ≠ 0 := by
  have : 2 * Real.pi * (1 / 4) * exOne.dc.T / 2 = Real.pi / 4 := by
    change 2 * Real.pi * (1 / 4) * 1 / 2 = _
    ring
  rw [this, Real.sin_pi_div_four]
  positivity

theorem drive_one (x u : ℕ → ℂ) (hu : u 0 = 0) : drive (cplx exOne.sys) x u 0 = 0 := by
  simp [drive, exOne, cplx, cm, hu]

/-- trajectories of the first-order bandpass frontend -/
theorem exOne_follows (w p q : ℝ) (hw : w ≠ 0) (GT : ℕ → ℕ → ℝ) (z s : ℂ) (a b : ℝ) :
    Follows (bpSys exOne.sys w (1 + 1) (1 + 1) (rotBlocks 1 p q) GT)
      (fun t => parts (free w (((p : ℂ) + Complex.I * q) * s) z t)) (fun _ _ => 0) (parts s) a b := by
  obtain ⟨k, hk⟩ : ∃ k, k = ((p : ℂ) + Complex.I * q) * s := ⟨_, rfl⟩
  rw [← hk]
  have hd : ∀ t, ∀ r < 1 + 1, HasDerivAt (fun t => parts (free w k z t) r)
      (rhs (bpSys exOne.sys w (1 + 1) (1 + 1) (rotBlocks 1 p q) GT) (parts (free w k z t)) (fun _ => 0) (parts s) r) t := by
    intro t r hr
    have h0 := ctl_rhs exOne.sys w p q GT (parts (free w k z t)) (fun _ => 0) (parts s) 0 one_pos
    have h1 : envelope 1 (rhs (bpSys exOne.sys w (1 + 1) (1 + 1) (rotBlocks 1 p q) GT) (parts (free w k z t))
        (fun _ => 0) (parts s)) 0 = Complex.I * w * free w k z t + k := by
      refine h0.trans ?_
      change Complex.I * w * envelope 1 (parts (free w k z t)) 0 + (_ + _) * envelope 1 (parts s) 0 + _ = _
      rw [env_parts, env_parts, drive_one _ _ (by unfold envelope; simp), hk, add_zero]
    have h2 := parts_env (rhs (bpSys exOne.sys w (1 + 1) (1 + 1) (rotBlocks 1 p q) GT) (parts (free w k z t))
        (fun _ => 0) (parts s))
    rw [h1] at h2
    have h3 := free_deriv w hw k z t
    obtain rfl | rfl : r = 0 ∨ r = 1 := by omega
    · rw [h2.1]
      exact (Complex.reCLM.hasFDerivAt.comp_hasDerivAt t h3 :)
    · rw [h2.2]
      exact (Complex.imCLM.hasFDerivAt.comp_hasDerivAt t h3 :)
  exact ⟨fun r hr t _ => (hd t r hr).continuousAt.continuousWithinAt, fun t _ r hr => (hd t r hr).hasDerivWithinAt⟩

/-- **C85 is false for the delay**: `get_bandpass` turns the control observation for the requested delay but returns a digital
control whose decisions act at once, so an undriven state is not cancelled. -/
theorem C85_delay_false : ∃ fe fc δ be x s, bandpass { frontend := some fe, fc := some fc, deltaDC := some δ } = .ok be ∧
    δ = fe.dc.T ∧ fe.dc.T = 1 ∧ be.dc.tDelay = 0 ∧
    (∀ st y t, 0 ≤ t → ∀ m, contribution be.dc (update be.dc st 0 y) t m = if 0 ≤ y m then 1 else -1) ∧
    Follows be.sys x (fun _ _ => 0) s 0 fe.dc.T ∧
    (∀ t, drive (cplx fe.sys) (envelope 1 (x t)) (envelope 1 fun _ => 0) 0 = 0) ∧
    envelope 1 s 0 = envelope 1 (cObs be.sys (x 0) (fun _ => 0) (fun _ => 0)) 0 ∧
    envelope 1 (x 0) 0 = 1 ∧ envelope 1 (x fe.dc.T) 0 ≠ 0 := by
  have hb : (fun _ _ : ℕ => (1 : ℝ)) 0 0 * exOne.dc.T ≠ 0 := by
    change (1 : ℝ) * 1 ≠ 0
    norm_num
  have hT : (0 : ℝ) ≤ exOne.dc.T := zero_le_one
  obtain ⟨be, h1, h2, h3⟩ := C85_delay exOne (1 / 4) 0 1 (fun _ _ => 1) rfl one_ne_zero rfl rfl hT exOne_sin hb
  have h4 := bandpass_ctl exOne (1 / 4) (some 0) (some 1) false (fun _ _ => 1) rfl one_ne_zero rfl rfl exOne_sin hb (by simp)
  have h5 : bandpass { frontend := some exOne, fc := some (1 / 4), deltaDC := some 1 } =
      bandpass { frontend := some exOne, fc := some (1 / 4), phi := some 0, deltaDC := some 1 } := rfl
  have h6 := h1.symm.trans h4
  rw [Except.ok.injEq] at h6
  obtain ⟨w, hw⟩ : ∃ w, w = 2 * Real.pi * (1 / 4) := ⟨_, rfl⟩
  have hwn : w ≠ 0 := by
    rw [hw]
    positivity
  simp only [Bool.false_eq_true, if_false, id_eq, Option.getD_some, ← hw] at h6
  obtain ⟨sv, hsv⟩ : ∃ sv, sv = envelope 1 (cObs be.sys (parts 1) (fun _ => 0) (fun _ => 0)) 0 := ⟨_, rfl⟩
  have hf := exOne_follows w
    (1 * exOne.dc.T * w / (2 * Real.sin (w * exOne.dc.T / 2)) * Real.cos 0)
    (1 * exOne.dc.T * w / (2 * Real.sin (w * exOne.dc.T / 2)) * Real.sin 0) hwn
    (rotBlocks exOne.sys.N (-1 / (1 * exOne.dc.T) * Real.cos (w * (exOne.dc.T / 2 + 1) - 0))
      (-1 / (1 * exOne.dc.T) * Real.sin (w * (exOne.dc.T / 2 + 1) - 0))) 1 sv
  have hsys : be.sys = bpSys exOne.sys w (1 + 1) (1 + 1)
      (rotBlocks 1 (1 * exOne.dc.T * w / (2 * Real.sin (w * exOne.dc.T / 2)) * Real.cos 0)
        (1 * exOne.dc.T * w / (2 * Real.sin (w * exOne.dc.T / 2)) * Real.sin 0))
      (rotBlocks exOne.sys.N (-1 / (1 * exOne.dc.T) * Real.cos (w * (exOne.dc.T / 2 + 1) - 0))
        (-1 / (1 * exOne.dc.T) * Real.sin (w * (exOne.dc.T / 2 + 1) - 0))) := congrArg Frontend.sys h6
  rw [← hsys] at hf
  have hx0 : parts (free w ((((1 * exOne.dc.T * w / (2 * Real.sin (w * exOne.dc.T / 2)) * Real.cos 0 : ℝ) : ℂ) +
      Complex.I * (1 * exOne.dc.T * w / (2 * Real.sin (w * exOne.dc.T / 2)) * Real.sin 0 : ℝ)) * sv) 1 0) = parts 1 := by
    rw [free_zero]
  have hobs : envelope 1 (parts sv) 0 = envelope 1 (cObs be.sys (parts 1) (fun _ => 0) (fun _ => 0)) 0 := by
    rw [env_parts, hsv]
  refine ⟨exOne, 1 / 4, 1, be, _, _, h5.trans h1, rfl, rfl, ?_, ?_, hf 0 exOne.dc.T, ?_, ?_, ?_, ?_⟩
  · rw [h6]
    rfl
  · rw [h6]
    intro st y t ht m
    have ha : allclose (0 : ℝ) 0 0 := by simp [allclose]
    change (if t < 0 then (stepResponse (0 : ℝ)).f (t + 1) else (stepResponse (0 : ℝ)).f t) *
      (if t < (0 : ℝ) then _ else (if allclose (0 : ℝ) 0 0 then 2 * (if (0 : ℝ) ≤ y m then (1 : ℝ) else 0) - 1 else _)) = _
    rw [if_neg (not_lt.2 ht), if_neg (not_lt.2 ht), if_pos ha]
    change (if 0 ≤ t then (1 : ℝ) else 0) * _ = _
    rw [if_pos ht]
    split_ifs <;> norm_num
  · intro t
    exact drive_one _ _ (by unfold envelope; simp)
  · rw [hx0]
    exact hobs
  · rw [hx0, env_parts]
  · have h7 := (h3 _ _ _ 0 0 le_rfl ⟨(hf 0 (0 + 0)).1, fun t ht => absurd ht (by simp)⟩ (hf (0 + 0) (0 + 0 + exOne.dc.T)) 0
      one_pos (fun t _ => drive_one _ _ (by unfold envelope; simp)) (by rw [hx0]; exact hobs)).1
    rw [zero_add, zero_add, hx0] at h7
    change envelope exOne.sys.N _ 0 ≠ 0
    rw [h7]
    refine mul_ne_zero (mul_ne_zero (Complex.exp_ne_zero _) ?_) ?_
    · have : Complex.I * ((2 * Real.pi * (1 / 4) * (1 - 0) : ℝ) : ℂ) = (Real.pi : ℂ) / 2 * Complex.I := by
        push_cast
        ring
      rw [this, Complex.exp_pi_div_two_mul_I]
      intro h
      have := congrArg Complex.re h
      simp at this
    · change envelope 1 _ 0 ≠ 0
      rw [env_parts]
      exact one_ne_zero

end Cbadc.Synthesis
