import Verif.Lemmas.CareExists
import Verif.Lemmas.Existence
import Verif.Props.Stabilising
import Verif.Props.Truncation

/-! # Existence and uniqueness of filter coefficients (C147) -/

namespace Cbadc.Filter

open Matrix Set Filter.Spec Cbadc.Analog Cbadc.Analog.Spec Cbadc.Control Cbadc.Estimator

/-! ### The waveforms of the library -/

theorem measurable_step (t0 a : ℝ) : Measurable fun t : ℝ => if t0 ≤ t then a else 0 :=
  Measurable.ite measurableSet_Ici measurable_const measurable_const

theorem right_step (t0 a t : ℝ) : ContinuousWithinAt (fun t : ℝ => if t0 ≤ t then a else 0) (Ici t) t := by
  by_cases h : t0 ≤ t
  · refine continuousWithinAt_const.congr (f := fun _ => a) (fun s hs => if_pos (h.trans hs)) (if_pos h)
  · refine (continuousAt_const (y := (0 : ℝ))).congr ?_ |>.continuousWithinAt
    filter_upwards [Iio_mem_nhds (not_le.1 h)] with s hs
    exact (if_neg (not_le.2 hs)).symm

/-- **C147** Every waveform of the library meets what the solvers need. -/
theorem C147_waveforms (d : Dac) (T : ℝ) : Waveform T d.eval := by
  cases d with
  | step t0 a =>
    refine ⟨measurable_step t0 a, ⟨|a|, fun t _ => ?_⟩, fun t _ => right_step t0 a t⟩
    show |if t0 ≤ t then a else 0| ≤ |a|
    by_cases h : t0 ≤ t
    · rw [if_pos h]
    · rw [if_neg h, abs_zero]; exact abs_nonneg a
  | nrz t0 t1 a =>
    refine ⟨Measurable.ite measurableSet_Iio (measurable_step t0 a) measurable_const, ⟨|a|, fun t _ => ?_⟩, fun t _ => ?_⟩
    · show |if t < t1 then (if t0 ≤ t then a else 0) else 0| ≤ |a|
      by_cases h1 : t < t1
      · rw [if_pos h1]
        by_cases h : t0 ≤ t
        · rw [if_pos h]
        · rw [if_neg h, abs_zero]; exact abs_nonneg a
      · rw [if_neg h1, abs_zero]; exact abs_nonneg a
    · show ContinuousWithinAt (fun t => if t < t1 then (if t0 ≤ t then a else 0) else 0) (Ici t) t
      by_cases h1 : t < t1
      · refine (right_step t0 a t).congr_of_eventuallyEq ?_ (if_pos h1)
        filter_upwards [mem_nhdsWithin_of_mem_nhds (Iio_mem_nhds h1)] with s hs
        exact if_pos hs
      · exact continuousWithinAt_const.congr (f := fun _ => 0) (fun s hs => if_neg (not_lt.2 ((not_lt.1 h1).trans hs))) (if_neg h1)
  | rc tau t0 a =>
    have hc : Continuous fun t : ℝ => a * Real.exp ((t0 - t) / tau) := by fun_prop
    obtain ⟨C, hC⟩ := isCompact_Icc.exists_bound_of_continuousOn (s := Icc 0 T) hc.continuousOn
    refine ⟨Measurable.ite measurableSet_Iio measurable_const hc.measurable, ⟨max 0 C, fun t ht => ?_⟩, fun t _ => ?_⟩
    · show |if t < t0 then 0 else a * Real.exp ((t0 - t) / tau)| ≤ _
      by_cases h : t < t0
      · rw [if_pos h, abs_zero]; exact le_max_left _ _
      · rw [if_neg h]; exact (hC t ht).trans (le_max_right _ _)
    · show ContinuousWithinAt (fun t => if t < t0 then 0 else a * Real.exp ((t0 - t) / tau)) (Ici t) t
      by_cases h : t < t0
      · refine (continuousAt_const (y := (0 : ℝ))).congr ?_ |>.continuousWithinAt
        filter_upwards [Iio_mem_nhds h] with s hs
        exact (if_pos hs).symm
      · exact hc.continuousWithinAt.congr (fun s hs => if_neg (not_lt.2 ((not_lt.1 h).trans hs))) (if_neg h)

theorem default_waveform (T : ℝ) : Waveform T (stepResponse (0 : ℝ)).f := C147_waveforms (.step 0 1) T

section
variable {g : Sys ℝ} {eta2 : ℝ} {M : ℕ}

/-- **C147** For an analog system whose states can all be reached from the inputs and all be seen in the outputs, both Riccati
equations have exactly one stabilising solution, whatever the parameter `eta2 > 0`, and both are positive definite. -/
theorem C147_care (he : 0 < eta2) (hr : Observable (toM g.N g.L g.B)ᵀ (toM g.N g.N g.A)ᵀ)
    (ho : Observable (toM g.Nt g.N g.CT) (toM g.N g.N g.A)) :
    (∃! Vf, IsStabilising (careA g) (careB g) (careQ g) (careR g eta2) Vf) ∧
    (∃! Vb, IsStabilising (-careA g) (careB g) (careQ g) (careR g eta2) Vb) := by
  have o1 : Observable (careQ g) (careA g) := hr.gram
  have o2 : Observable (careB g)ᵀ (careA g)ᵀ := ho
  obtain ⟨Vf, hf⟩ := care_exists careQ_psd (careR_posDef he) o1 o2
  obtain ⟨Vb, hb⟩ := care_exists careQ_psd (careR_posDef he) o1.neg (B := careB g) (by rw [transpose_neg]; exact o2.neg)
  exact ⟨⟨Vf, hf, fun V h => (C144_stabilising hf careQ_psd (careR_posDef he) o1).1 V h⟩,
    ⟨Vb, hb, fun V h => (C144_stabilising hb careQ_psd (careR_posDef he) o1.neg).1 V h⟩⟩

theorem drive_eq (G : ℕ → ℕ → ℝ) (dc : DC ℝ M) (m : Fin M) {t : ℝ} (ht : t ∈ Icc 0 dc.T) :
    toM g.N M G *ᵥ impulseResponse dc m t = (dc.ir m).f t • fun n : Fin g.N => G n m := by
  funext n
  show ∑ i : Fin M, G n i * (if i = m ∧ 0 ≤ t ∧ t ≤ dc.T then (dc.ir m).f t else 0) = (dc.ir m).f t * G n m
  rw [Finset.sum_eq_single m (fun i _ hi => by rw [if_neg fun h => hi h.1, mul_zero]) (fun h => absurd (Finset.mem_univ m) h),
    if_pos ⟨rfl, ht.1, ht.2⟩, mul_comm]

/-- **C147** The filter coefficients exist and are unique: for such an analog system, every `eta2 > 0`, every period and all
waveforms, there are stabilising solutions of the Riccati equations and coefficients with them, and any two exact computations agree. -/
theorem C147_coefficients (he : 0 < eta2) (hr : Observable (toM g.N g.L g.B)ᵀ (toM g.N g.N g.A)ᵀ)
    (ho : Observable (toM g.Nt g.N g.CT) (toM g.N g.N g.A)) (G : ℕ → ℕ → ℝ) (dc : DC ℝ M) (hT : 0 ≤ dc.T)
    (hw : ∀ m, Waveform dc.T (dc.ir m).f) :
    ∃ Vf Vb, ∃ c : Coeffs ℝ g.N M g.L,
      (IsStabilising (careA g) (careB g) (careQ g) (careR g eta2) Vf ∧ IsStabilising (-careA g) (careB g) (careQ g) (careR g eta2) Vb ∧
        Numerical g G dc eta2 Vf Vb c) ∧
      ∀ Vf' Vb' c', IsStabilising (careA g) (careB g) (careQ g) (careR g eta2) Vf' →
        IsStabilising (-careA g) (careB g) (careQ g) (careR g eta2) Vb' → Numerical g G dc eta2 Vf' Vb' c' →
        Vf' = Vf ∧ Vb' = Vb ∧ c' = c := by
  obtain ⟨⟨Vf, hf, uf⟩, ⟨Vb, hb, ub⟩⟩ := C147_care he hr ho
  have o1 : Observable (careQ g) (careA g) := hr.gram
  have pf := (C144_stabilising hf careQ_psd (careR_posDef he) o1).2
  have pb := (C144_stabilising hb careQ_psd (careR_posDef he) o1.neg).2
  have hu : IsUnit (Vf + Vb).det := (pf.add pb).det_pos.ne'.isUnit
  have hut : IsUnit (Vf + Vb)ᵀ.det := by rwa [det_transpose]
  choose ψ hψ hψ0 using fun m => duhamel_right (tempAf g eta2 Vf) (hw m) (fun n : Fin g.N => G n m)
  choose χ hχ hχ0 using fun m => duhamel_end (tempAb g eta2 Vb) (hw m) (fun n : Fin g.N => G n m)
  have hψ' : ∀ m, Flow (tempAf g eta2 Vf) (fun t => toM g.N M G *ᵥ impulseResponse dc m t) 0 dc.T (ψ m) := fun m =>
    (hψ m).congr fun t ht => (drive_eq G dc m ⟨ht.1, ht.2.le⟩).symm
  have hχ' : ∀ m, Flow (tempAb g eta2 Vb) (fun t => toM g.N M G *ᵥ impulseResponse dc m t) 0 dc.T (χ m) := fun m =>
    (hχ m).congr fun t ht => (drive_eq G dc m ⟨ht.1, ht.2.le⟩).symm
  refine ⟨Vf, Vb, ⟨NormedSpace.exp (dc.T • tempAf g eta2 Vf), NormedSpace.exp (dc.T • -tempAb g eta2 Vb), fun n m => ψ m dc.T n,
    fun n m => χ m 0 n, ((Vf + Vb)⁻¹ * toM g.N g.L g.B)ᵀ⟩, ⟨hf, hb, ⟨hf.care, hb.care⟩, ⟨rfl, rfl, ?_⟩, ?_, ?_⟩, ?_⟩
  · dsimp only
    rw [transpose_transpose, ← Matrix.mul_assoc, mul_nonsing_inv _ hu, Matrix.one_mul, sub_self, Matrix.mul_zero]
  · exact fun m => ⟨ψ m, hψ' m, hψ0 m, fun _ => rfl⟩
  · refine fun m => ⟨fun t => χ m (dc.T - t), (hχ' m).reverse, ?_, fun n => ?_⟩
    · show χ m (dc.T - 0) = 0
      rw [sub_zero, hχ0]
    · show χ m 0 n = χ m (dc.T - dc.T) n
      rw [sub_self]
  · intro Vf' Vb' c' h1 h2 h3
    obtain rfl := uf Vf' h1
    obtain rfl := ub Vb' h2
    refine ⟨rfl, rfl, ?_⟩
    obtain ⟨Af, Ab, Bf, Bb, WT⟩ := c'
    have e1 : Af = _ := h3.common.Af
    have e2 : Ab = _ := h3.common.Ab
    have e3 : Bf = fun n m => ψ m dc.T n := by
      funext n m
      obtain ⟨ξ, h4, h5, h6⟩ := h3.regular.Bf m
      have h6 : Bf n m = ξ dc.T n := h6 n
      rw [h6, flow_unique h4 (hψ' m) (by rw [h5, hψ0]) dc.T ⟨hT, le_refl _⟩]
    have e4 : Bb = fun n m => χ m 0 n := by
      funext n m
      obtain ⟨ξ, h4, h5, h6⟩ := h3.regular.Bb m
      have h6 : Bb n m = ξ dc.T n := h6 n
      have h7 := h4.reverse
      rw [neg_neg] at h7
      have h8 : Flow (tempAb g eta2 Vb') (fun t => toM g.N M G *ᵥ impulseResponse dc m t) 0 dc.T (fun t => ξ (dc.T - t)) :=
        h7.congr fun t _ => by rw [neg_neg, sub_sub_cancel]
      have h9 := flow_start hT h8 (hχ' m) (hχ0 m)
      rw [sub_zero, sub_self, h5, mulVec_zero, zero_add] at h9
      rw [h6, h9]
    have e5 : WT = ((Vf' + Vb')⁻¹ * toM g.N g.L g.B)ᵀ := by
      have h4 : (Vf' + Vb')ᵀ * ((Vf' + Vb') * WTᵀ - toM g.N g.L g.B) = 0 := h3.common.WT
      have h5 : ((Vf' + Vb')ᵀ)⁻¹ * ((Vf' + Vb')ᵀ * ((Vf' + Vb') * WTᵀ - toM g.N g.L g.B)) = 0 := by
        rw [h4, Matrix.mul_zero]
      rw [← Matrix.mul_assoc, nonsing_inv_mul _ hut, Matrix.one_mul, sub_eq_zero] at h5
      rw [← h5, ← Matrix.mul_assoc, nonsing_inv_mul _ hu, Matrix.one_mul, transpose_transpose]
    rw [e1, e2, e3, e4, e5]

end

/-- `C147_care`: an integrator, with a return-to-zero pulse of half a period -/
example : ∃ Vf Vb c, Numerical (exSys 0) (fun _ _ => -1) (exDC 0 (.nrz 0 (1 / 2) 2)) 3 Vf Vb c ∧ Vf.PosDef :=
  have hr : Observable (toM (exSys 0).N (exSys 0).L (exSys 0).B)ᵀ (toM (exSys 0).N (exSys 0).N (exSys 0).A)ᵀ := ex_ctrl
  have ⟨Vf, Vb, c, ⟨h1, _, h3⟩, _⟩ := C147_coefficients (eta2 := 3) (by norm_num) hr ex_obs (fun _ _ => -1)
    (exDC 0 (.nrz 0 (1 / 2) 2)) zero_le_one fun _ => C147_waveforms (.nrz 0 (1 / 2) 2) 1
  ⟨Vf, Vb, c, h3, (C144_stabilising h1 careQ_psd (careR_posDef (by norm_num)) hr.gram).2⟩

end Cbadc.Filter

namespace Cbadc.EndToEnd

open Matrix Set Filter.Spec Cbadc.Analog Cbadc.Analog.Spec Cbadc.Control Cbadc.Estimator Cbadc.Simulate Cbadc.Filter Cbadc.Streams

/-- **C147** For every chain of integrators and every leap-frog structure without a zero gain `beta_n`, every `eta2 > 0` and all
waveforms of the library, the filter coefficients exist and are unique. -/
theorem C147_structures (beta alpha rho : List ℝ) (kappa : ℕ → ℕ → ℝ) (hb : beta ≠ []) (ha : alpha.length + 1 = beta.length)
    (hr : rho.length = beta.length) (hb0 : ∀ b ∈ beta, b ≠ 0) (g : Sys ℝ)
    (h : chainOfIntegrators beta rho (.mat beta.length 1 kappa) = .ok g ∨ leapFrog beta alpha rho (.mat beta.length 1 kappa) = .ok g)
    {eta2 : ℝ} (he : 0 < eta2) (G : ℕ → ℕ → ℝ) {M : ℕ} (dc : DC ℝ M) (hT : 0 < dc.T) (dac : Fin M → Dac) (hd : ∀ m, dc.ir m = (dac m).ir) :
    ∃! p : Matrix (Fin g.N) (Fin g.N) ℝ × Matrix (Fin g.N) (Fin g.N) ℝ × Coeffs ℝ g.N M g.L,
      IsStabilising (careA g) (careB g) (careQ g) (careR g eta2) p.1 ∧ IsStabilising (-careA g) (careB g) (careQ g) (careR g eta2) p.2.1 ∧
        Numerical g G dc eta2 p.1 p.2.1 p.2.2 := by
  have hro : Observable (toM g.N g.L g.B)ᵀ (toM g.N g.N g.A)ᵀ ∧ Observable (toM g.Nt g.N g.CT) (toM g.N g.N g.A) := by
    rcases h with h | h
    · have := C144_chain beta rho kappa hb hr g h
      exact ⟨this.1.2 hb0, this.2⟩
    · have := C144_leap_frog beta alpha rho kappa hb ha hr g h
      exact ⟨this.1.2 hb0, this.2⟩
  obtain ⟨Vf, Vb, c, h1, h2⟩ := C147_coefficients he hro.1 hro.2 G dc hT.le fun m => by
    rw [hd]; exact C147_waveforms (dac m) dc.T
  refine ⟨(Vf, Vb, c), h1, fun p hp => ?_⟩
  obtain ⟨e1, e2, e3⟩ := h2 p.1 p.2.1 p.2.2 hp.1 hp.2.1 hp.2.2
  exact Prod.ext e1 (Prod.ext e2 e3)

example : ∃ g, leapFrog [1, 2] [-3] [0, -1] (.mat 2 1 fun _ _ => -1) = .ok g ∧
    ∃ Vf Vb, ∃ c : Coeffs ℝ g.N 1 g.L, Numerical g (fun _ _ => -1) (exDC 0 (.rc (1 / 4) 0 1)) 2 Vf Vb c := by
  refine ⟨_, leap_eq [1, 2] [-3] [0, -1] (by simp) rfl rfl _, ?_⟩
  obtain ⟨p, h, -⟩ := C147_structures [1, 2] [-3] [0, -1] (fun _ _ => -1) (by simp) rfl rfl (by norm_num) _
    (Or.inr (leap_eq [1, 2] [-3] [0, -1] (by simp) rfl rfl _)) (eta2 := 2) two_pos (fun _ _ => -1) (exDC 0 (.rc (1 / 4) 0 1)) one_pos
    (fun _ => .rc (1 / 4) 0 1) fun _ => rfl
  exact ⟨_, _, _, h.2.2⟩

/-- **C147** With C143 and C144, without any assumption on the filters: for a simulated chain of integrators with strong enough
control and an input within the unit interval there are filter coefficients, for every `eta2 > 0`, the powers of which vanish and which
estimate the input with an error of bounded energy per period. -/
theorem C147_converter (beta rho : List ℝ) (kappa : ℕ → ℕ → ℝ) (hb : beta ≠ []) (hrl : rho.length = beta.length) (hb0 : ∀ b ∈ beta, b ≠ 0)
    (cfg : Cfg beta.length) (hsys : chainOfIntegrators beta rho (.mat beta.length 1 kappa) = .ok cfg.sys)
    (T tt2 : ℝ) (hT : 0 < T) (h2 : 0 ≤ tt2) (hdc : DC.new T tt2 beta.length none 0 none = .ok cfg.dc) (hin : cfg.hasInput = true)
    (hu : ∀ k t, |cfg.input k t 0| ≤ 1) (hcont : ∀ k l, Continuous fun t => cfg.input k t l)
    (hκ : ∀ n < beta.length, kappa n 0 ≠ 0) (hrho : ∀ n < beta.length, rho.getD n 0 ≤ 0)
    (hdom : ∀ n < beta.length, |beta.getD n 0| ≤ |kappa n 0|) (hκT : ∀ n < beta.length, |kappa n 0| * T ≤ 1 / 2)
    {G : ℕ → ℕ → ℝ} (hG : cfg.sys.Gamma = some G) {eta2 : ℝ} (he : 0 < eta2) :
    ∃ Vf Vb, ∃ c : Coeffs ℝ cfg.sys.N beta.length cfg.sys.L, ∃ E : ℝ, Numerical cfg.sys G cfg.dc eta2 Vf Vb c ∧
      Filter.Tendsto (fun k : ℕ => c.Af ^ k) Filter.atTop (nhds 0) ∧ Filter.Tendsto (fun k : ℕ => c.Ab ^ k) Filter.atTop (nhds 0) ∧
      ∀ (st : ℕ → St beta.length) (φ : ℕ → ℝ → ℕ → ℝ), Run cfg st φ → InBox beta.length (st 0).x → ∀ K : ℕ,
      ∃ u, (∀ k ≤ K, u k 0 = Cbadc.Spec.future c.WT c.Ab c.Bb (Cbadc.Spec.ext fun k => signal (st (k + 1)).c) k (K - k) -
          Cbadc.Spec.past c.WT c.Af c.Bf (Cbadc.Spec.ext fun k => signal (st (k + 1)).c) k k) ∧
        ErrorWithin (toM cfg.sys.N cfg.sys.N cfg.sys.A) (toM cfg.sys.N cfg.sys.L cfg.sys.B) (toM cfg.sys.Nt cfg.sys.N cfg.sys.CT) T K
          (fun k t l => cfg.input ((st k).ticks + 1) (t + (st k).t) l) u (K * T * (eta2 + beta.length) + E) := by
  have hro := C144_chain beta rho kappa hb hrl cfg.sys hsys
  have hreach := hro.1.2 hb0
  have hcT := plain_T T tt2 cfg.dc hdc
  have hw : ∀ m, Waveform cfg.dc.T (cfg.dc.ir m).f := by
    intro m
    have hd : cfg.dc = ⟨T, tt2, 0, fun _ => stepResponse 0, fun _ => 0⟩ := by
      have h := hdc
      simp only [DC.new, initIR, initOffsets, lt_self_iff_false, if_false, Except.ok.injEq] at h
      exact h.symm
    rw [hd]
    exact default_waveform T
  obtain ⟨Vf, Vb, c, ⟨hf, hb', hn⟩, -⟩ := C147_coefficients he hreach hro.2 G cfg.dc (hcT ▸ hT.le) hw
  obtain ⟨-, -, -, -, -, hp⟩ := C144_filters (c := c) hf hb' he hreach
  obtain ⟨p1, p2⟩ := hp _ (hcT ▸ hT) hn.common
  refine ⟨Vf, Vb, c, eta2 * (∑ i, ∑ j, |Vf⁻¹ i j| + ∑ i, ∑ j, |Vb⁻¹ i j|), hn, p1, p2, fun st φ hrun hbox K => ?_⟩
  exact C144_converter beta rho kappa hb hrl hb0 cfg hsys T tt2 hT h2 hdc hin hu hcont hκ hrho hdom hκT st φ hrun hbox hG he hf hb'
    (hcT ▸ hn.common) hn.regular K

/-- `C147_converter`, and with it `C144_converter`: the integrator of C20 with a constant input, whose coefficients exist -/
example : ∃ (cfg : Cfg 1) (st : ℕ → St 1) (φ : ℕ → ℝ → ℕ → ℝ) (Vf Vb : Matrix (Fin cfg.sys.N) (Fin cfg.sys.N) ℝ)
    (G : ℕ → ℕ → ℝ) (c : Coeffs ℝ cfg.sys.N 1 cfg.sys.L), Run cfg st φ ∧ cfg.sys.Gamma = some G ∧
      Numerical cfg.sys G cfg.dc 1 Vf Vb c := by
  obtain ⟨⟨sys, dc, input, hi⟩, st, φ, hs, hdc, hin, hinp, hr, hbox, h0⟩ := ex_simulation
  dsimp only at hdc hs hin hinp
  have hG : sys.Gamma ≠ none := by
    have h := hs.symm.trans (chain_eq [1] [0] (by simp) rfl (fun _ _ => 1))
    rw [Except.ok.injEq] at h
    rw [h]
    simp
  obtain ⟨G, hG⟩ := Option.ne_none_iff_exists'.1 hG
  obtain ⟨Vf, Vb, c, -, hn, -⟩ := C147_converter [1] [0] (fun _ _ => 1) (by simp) rfl (by simp) ⟨sys, dc, input, hi⟩ hs (1 / 2) 0
    (by norm_num) le_rfl hdc hin (fun _ _ => by rw [hinp]; norm_num [abs_of_pos]) (fun _ _ => by rw [hinp]; exact continuous_const)
    (fun _ _ => one_ne_zero) (fun n hn => by obtain rfl : n = 0 := by simpa using hn
                                             simp) (fun n hn => by obtain rfl : n = 0 := by simpa using hn
                                                                   simp) (fun _ _ => by norm_num) hG one_pos
  exact ⟨_, st, φ, Vf, Vb, G, c, hr, hG, hn⟩


end Cbadc.EndToEnd
