import Verif.Lemmas.EndToEnd
import Verif.Spec.EndToEnd
import Verif.Props.Principle
import Verif.Props.Bounded

/-! # From the input through simulation and estimation to the estimate (C143) -/

namespace Cbadc.EndToEnd

open Matrix Set Filter.Spec Cbadc.Analog Cbadc.Analog.Spec Cbadc.Control Cbadc.Estimator Cbadc.Simulate Cbadc.Filter Cbadc.Streams

/-- what the batch estimator returns for the control vectors of a simulation, for a simulation within bounds -/
theorem estimate_within {M : ℕ} {cfg : Cfg M} {G : ℕ → ℕ → ℝ} (hG : cfg.sys.Gamma = some G) (hin : cfg.hasInput = true)
    (hcont : ∀ k l, Continuous fun t => cfg.input k t l) (hd : cfg.dc.tDelay = 0) (h0 : ∀ m, (cfg.dc.ir m).t0 = 0)
    (h2 : 0 ≤ cfg.dc.tt2) (hT : 0 ≤ cfg.dc.T) {eta2 : ℝ} {Vf Vb : Matrix (Fin cfg.sys.N) (Fin cfg.sys.N) ℝ}
    {c : Coeffs ℝ cfg.sys.N M cfg.sys.L} (h : Numerical cfg.sys G cfg.dc eta2 Vf Vb c) (he : 0 < eta2) (pf : Vf.PosDef) (pb : Vb.PosDef)
    {st : ℕ → St M} {φ : ℕ → ℝ → ℕ → ℝ} (hr : Run cfg st φ) (K : ℕ) {U Y : ℝ}
    (hU : ∀ k < K, ∀ t ∈ Ico 0 cfg.dc.T, (fun l : Fin cfg.sys.L => cfg.input ((st k).ticks + 1) (t + (st k).t) l) ⬝ᵥ
      (fun l : Fin cfg.sys.L => cfg.input ((st k).ticks + 1) (t + (st k).t) l) ≤ U)
    (hY : ∀ k < K, ∀ t ∈ Ico 0 cfg.dc.T, (toM cfg.sys.Nt cfg.sys.N cfg.sys.CT *ᵥ fun n => φ k t n) ⬝ᵥ
      (toM cfg.sys.Nt cfg.sys.N cfg.sys.CT *ᵥ fun n => φ k t n) ≤ Y) :
    ∃ u, (∀ k ≤ K, u k 0 = Cbadc.Spec.future c.WT c.Ab c.Bb (Cbadc.Spec.ext fun k => signal (st (k + 1)).c) k (K - k) -
        Cbadc.Spec.past c.WT c.Af c.Bf (Cbadc.Spec.ext fun k => signal (st (k + 1)).c) k k) ∧
      ErrorWithin (toM cfg.sys.N cfg.sys.N cfg.sys.A) (toM cfg.sys.N cfg.sys.L cfg.sys.B) (toM cfg.sys.Nt cfg.sys.N cfg.sys.CT) cfg.dc.T K
        (fun k t l => cfg.input ((st k).ticks + 1) (t + (st k).t) l) u
        (K * cfg.dc.T * (eta2 * U + Y) + eta2 * ((fun n : Fin cfg.sys.N => φ 0 0 n) ⬝ᵥ Vf⁻¹ *ᵥ (fun n => φ 0 0 n) +
          (fun n : Fin cfg.sys.N => φ K 0 n) ⬝ᵥ Vb⁻¹ *ᵥ (fun n => φ K 0 n))) := by
  have hx := run_explains hG hin hr K
  obtain ⟨J, hJ⟩ := exists_power (toM cfg.sys.Nt cfg.sys.N cfg.sys.CT) eta2 hT K
    (v := fun k t l => cfg.input ((st k).ticks + 1) (t + (st k).t) l) (x := fun k t n => φ k t n)
    (fun k _ => continuousOn_pi.2 fun l => ((hcont _ l).comp (continuous_id.add continuous_const)).continuousOn)
    (fun k hk => (hx.flow k hk).cont)
  obtain ⟨u, z, hu, hz, hR⟩ := C142_bound h he hT pf pb hd h0 K (fun k => signal (st (k + 1)).c) (fun k => (st (k + 1)).c)
    (run_valued h0 h2 hr) hx hJ hU hY
  obtain ⟨R, hR'⟩ := exists_power (toM cfg.sys.Nt cfg.sys.N cfg.sys.CT) 1 hT K (L := 0) (v := fun _ _ => 0) (x := z)
    (fun _ _ => continuousOn_const) (fun k hk => (hz.flow k hk).cont)
  have hR' := integrates_congr hR' (w' := fun k t => (toM cfg.sys.Nt cfg.sys.N cfg.sys.CT *ᵥ z k t) ⬝ᵥ
    (toM cfg.sys.Nt cfg.sys.N cfg.sys.CT *ᵥ z k t)) fun k _ t _ => by simp [power]
  exact ⟨u, hu, z, R, hz, hR', hR R hR'⟩

/-- any network of integrators -/
theorem network_within {N : ℕ} (cfg : Cfg N) (beta alpha rho kappa : ℕ → ℝ) (hg : IsNetwork cfg.sys N beta alpha rho kappa)
    (T tt2 : ℝ) (hT : 0 < T) (h2 : 0 ≤ tt2) (hdc : DC.new T tt2 N none 0 none = .ok cfg.dc) (hin : cfg.hasInput = true)
    (hu : ∀ k t, |cfg.input k t 0| ≤ 1) (hcont : ∀ k l, Continuous fun t => cfg.input k t l)
    (hκ : ∀ n < N, kappa n ≠ 0) (hrho : ∀ n < N, rho n ≤ 0)
    (hdom : ∀ n < N, |beta n| + |alpha n| ≤ |kappa n|) (hκT : ∀ n < N, 2 * |kappa n| * T ≤ 1)
    (st : ℕ → St N) (φ : ℕ → ℝ → ℕ → ℝ) (hr : Run cfg st φ) (hbox : InBox N (st 0).x)
    {G : ℕ → ℕ → ℝ} (hG : cfg.sys.Gamma = some G) {eta2 : ℝ} {Vf Vb : Matrix (Fin cfg.sys.N) (Fin cfg.sys.N) ℝ}
    {c : Coeffs ℝ cfg.sys.N N cfg.sys.L} (h : Numerical cfg.sys G cfg.dc eta2 Vf Vb c) (he : 0 < eta2) (pf : Vf.PosDef) (pb : Vb.PosDef)
    (K : ℕ) :
    ∃ u, (∀ k ≤ K, u k 0 = Cbadc.Spec.future c.WT c.Ab c.Bb (Cbadc.Spec.ext fun k => signal (st (k + 1)).c) k (K - k) -
        Cbadc.Spec.past c.WT c.Af c.Bf (Cbadc.Spec.ext fun k => signal (st (k + 1)).c) k k) ∧
      ErrorWithin (toM cfg.sys.N cfg.sys.N cfg.sys.A) (toM cfg.sys.N cfg.sys.L cfg.sys.B) (toM cfg.sys.Nt cfg.sys.N cfg.sys.CT) T K
        (fun k t l => cfg.input ((st k).ticks + 1) (t + (st k).t) l) u
        (K * T * (eta2 + N) + eta2 * (∑ i, ∑ j, |Vf⁻¹ i j| + ∑ i, ∑ j, |Vb⁻¹ i j|)) := by
  have hTeq := plain_T T tt2 cfg.dc hdc
  have hdc' : cfg.dc = ⟨T, tt2, 0, fun _ => stepResponse 0, fun _ => 0⟩ := by
    simp only [DC.new, initIR, initOffsets, lt_self_iff_false, if_false, Except.ok.injEq] at hdc
    exact hdc.symm
  have hN := hg.n
  have hb := run_bounded cfg beta alpha rho kappa hg T tt2 hT h2 hdc hin hu hκ hrho hdom hκT st φ hr hbox
  have hx : ∀ k, ∀ t ∈ Icc 0 T, ∀ n : Fin cfg.sys.N, |φ k t n| ≤ 1 := fun k t ht n => (hb k).2 t ht n (by omega)
  obtain ⟨u, hu', z, R, hz, hR, hle⟩ := estimate_within hG hin hcont (by rw [hdc']) (by intro m; rw [hdc']; rfl)
    (by rw [hdc']; exact h2) (by rw [hTeq]; exact hT.le) h he pf pb hr K (U := 1) (Y := N)
    (fun k _ t _ => by
      refine (dot_le fun l => ?_).trans (by rw [hg.l]; norm_num)
      have : (l : ℕ) = 0 := by have := l.2; have := hg.l; omega
      rw [this]
      exact hu _ _)
    (fun k _ t ht => by
      refine (dot_le fun n => ?_).trans (by rw [hg.nt])
      obtain ⟨y, h1, h3, h4⟩ := hg.out (φ k t)
      unfold Sys.signalObservation npDot at h1
      rw [if_neg (by show ¬ N ≠ cfg.sys.N; omega), Except.ok.injEq] at h1
      have hn : (n : ℕ) < N := by have := n.2; have := hg.nt; omega
      have h5 := h4 n hn
      rw [← h1] at h5
      rw [toM_mulVec]
      change |dot cfg.sys.N cfg.sys.CT (φ k t) n| ≤ 1
      change dot cfg.sys.N cfg.sys.CT (φ k t) n = _ at h5
      rw [h5]
      rw [hTeq] at ht
      exact hx k t ⟨ht.1, ht.2.le⟩ ⟨n, by omega⟩)
  rw [hTeq] at hz hR hle
  refine ⟨u, hu', z, R, hz, hR, hle.trans ?_⟩
  have q1 := quad_le Vf⁻¹ (x := fun n => φ 0 0 n) (hx 0 0 ⟨le_rfl, hT.le⟩)
  have q2 := quad_le Vb⁻¹ (x := fun n => φ K 0 n) (hx K 0 ⟨le_rfl, hT.le⟩)
  rw [mul_one]
  refine add_le_add le_rfl (mul_le_mul_of_nonneg_left (add_le_add q1 q2) he.le)

/-- **C143** `ChainOfIntegrators` under the conditions of C20, simulated with any continuous input bounded by 1 and estimated with the
exact filter coefficients: over every horizon of `K` periods the estimates are samples of a signal whose difference to the input, sent
through the chain without controls, leads to outputs of a mean power of at most `eta2 + N`, up to a constant energy that depends on
neither input, decisions nor horizon. -/
theorem C143_chain (beta rho : List ℝ) (kappa : ℕ → ℕ → ℝ) (hb : beta ≠ []) (hrl : rho.length = beta.length)
    (cfg : Cfg beta.length) (hsys : chainOfIntegrators beta rho (.mat beta.length 1 kappa) = .ok cfg.sys)
    (T tt2 : ℝ) (hT : 0 < T) (h2 : 0 ≤ tt2) (hdc : DC.new T tt2 beta.length none 0 none = .ok cfg.dc) (hin : cfg.hasInput = true)
    (hu : ∀ k t, |cfg.input k t 0| ≤ 1) (hcont : ∀ k l, Continuous fun t => cfg.input k t l)
    (hκ : ∀ n < beta.length, kappa n 0 ≠ 0) (hrho : ∀ n < beta.length, rho.getD n 0 ≤ 0)
    (hdom : ∀ n < beta.length, |beta.getD n 0| ≤ |kappa n 0|) (hκT : ∀ n < beta.length, |kappa n 0| * T ≤ 1 / 2)
    (st : ℕ → St beta.length) (φ : ℕ → ℝ → ℕ → ℝ) (hrun : Run cfg st φ) (hbox : InBox beta.length (st 0).x)
    {G : ℕ → ℕ → ℝ} (hG : cfg.sys.Gamma = some G) {eta2 : ℝ} {Vf Vb : Matrix (Fin cfg.sys.N) (Fin cfg.sys.N) ℝ}
    {c : Coeffs ℝ cfg.sys.N beta.length cfg.sys.L} (h : Numerical cfg.sys G cfg.dc eta2 Vf Vb c) (he : 0 < eta2) (pf : Vf.PosDef)
    (pb : Vb.PosDef) (K : ℕ) :
    ∃ u, (∀ k ≤ K, u k 0 = Cbadc.Spec.future c.WT c.Ab c.Bb (Cbadc.Spec.ext fun k => signal (st (k + 1)).c) k (K - k) -
        Cbadc.Spec.past c.WT c.Af c.Bf (Cbadc.Spec.ext fun k => signal (st (k + 1)).c) k k) ∧
      ErrorWithin (toM cfg.sys.N cfg.sys.N cfg.sys.A) (toM cfg.sys.N cfg.sys.L cfg.sys.B) (toM cfg.sys.Nt cfg.sys.N cfg.sys.CT) T K
        (fun k t l => cfg.input ((st k).ticks + 1) (t + (st k).t) l) u
        (K * T * (eta2 + beta.length) + eta2 * (∑ i, ∑ j, |Vf⁻¹ i j| + ∑ i, ∑ j, |Vb⁻¹ i j|)) := by
  obtain ⟨g, hg1, hg2⟩ := C60_chain beta rho kappa hb hrl
  rw [hg1, Except.ok.injEq] at hsys
  subst hsys
  exact network_within cfg _ _ _ _ hg2 T tt2 hT h2 hdc hin hu hcont hκ hrho (fun n hn => by simpa using hdom n hn)
    (fun n hn => by have := hκT n hn; linarith) st φ hrun hbox hG h he pf pb K

/-- **C143** The same for `LeapFrog` under the conditions of C62. -/
theorem C143_leap_frog (beta alpha rho : List ℝ) (kappa : ℕ → ℕ → ℝ) (hb : beta ≠ []) (ha : alpha.length + 1 = beta.length)
    (hrl : rho.length = beta.length)
    (cfg : Cfg beta.length) (hsys : leapFrog beta alpha rho (.mat beta.length 1 kappa) = .ok cfg.sys)
    (T tt2 : ℝ) (hT : 0 < T) (h2 : 0 ≤ tt2) (hdc : DC.new T tt2 beta.length none 0 none = .ok cfg.dc) (hin : cfg.hasInput = true)
    (hu : ∀ k t, |cfg.input k t 0| ≤ 1) (hcont : ∀ k l, Continuous fun t => cfg.input k t l)
    (hκ : ∀ n < beta.length, kappa n 0 ≠ 0) (hrho : ∀ n < beta.length, rho.getD n 0 ≤ 0)
    (hdom : ∀ n < beta.length, |beta.getD n 0| + |alpha.getD n 0| ≤ |kappa n 0|) (hκT : ∀ n < beta.length, |kappa n 0| * T ≤ 1 / 2)
    (st : ℕ → St beta.length) (φ : ℕ → ℝ → ℕ → ℝ) (hrun : Run cfg st φ) (hbox : InBox beta.length (st 0).x)
    {G : ℕ → ℕ → ℝ} (hG : cfg.sys.Gamma = some G) {eta2 : ℝ} {Vf Vb : Matrix (Fin cfg.sys.N) (Fin cfg.sys.N) ℝ}
    {c : Coeffs ℝ cfg.sys.N beta.length cfg.sys.L} (h : Numerical cfg.sys G cfg.dc eta2 Vf Vb c) (he : 0 < eta2) (pf : Vf.PosDef)
    (pb : Vb.PosDef) (K : ℕ) :
    ∃ u, (∀ k ≤ K, u k 0 = Cbadc.Spec.future c.WT c.Ab c.Bb (Cbadc.Spec.ext fun k => signal (st (k + 1)).c) k (K - k) -
        Cbadc.Spec.past c.WT c.Af c.Bf (Cbadc.Spec.ext fun k => signal (st (k + 1)).c) k k) ∧
      ErrorWithin (toM cfg.sys.N cfg.sys.N cfg.sys.A) (toM cfg.sys.N cfg.sys.L cfg.sys.B) (toM cfg.sys.Nt cfg.sys.N cfg.sys.CT) T K
        (fun k t l => cfg.input ((st k).ticks + 1) (t + (st k).t) l) u
        (K * T * (eta2 + beta.length) + eta2 * (∑ i, ∑ j, |Vf⁻¹ i j| + ∑ i, ∑ j, |Vb⁻¹ i j|)) := by
  obtain ⟨g, hg1, hg2⟩ := C61_leap_frog beta alpha rho kappa hb ha hrl
  rw [hg1, Except.ok.injEq] at hsys
  subst hsys
  exact network_within cfg _ _ _ _ hg2 T tt2 hT h2 hdc hin hu hcont hκ hrho hdom
    (fun n hn => by have := hκT n hn; linarith) st φ hrun hbox hG h he pf pb K

/-- **C143** What the batch estimator returns as its value number `n` when it reads the control vectors of the simulation is the
sample number `n` of such a signal, over the horizon of all control vectors read so far. -/
theorem C143_batch (beta alpha rho kappa : ℕ → ℝ) {N : ℕ} (cfg : Cfg N) (hg : IsNetwork cfg.sys N beta alpha rho kappa)
    (T tt2 : ℝ) (hT : 0 < T) (h2 : 0 ≤ tt2) (hdc : DC.new T tt2 N none 0 none = .ok cfg.dc) (hin : cfg.hasInput = true)
    (hu : ∀ k t, |cfg.input k t 0| ≤ 1) (hcont : ∀ k l, Continuous fun t => cfg.input k t l)
    (hκ : ∀ n < N, kappa n ≠ 0) (hrho : ∀ n < N, rho n ≤ 0)
    (hdom : ∀ n < N, |beta n| + |alpha n| ≤ |kappa n|) (hκT : ∀ n < N, |kappa n| * T ≤ 1 / 2)
    (st : ℕ → St N) (φ : ℕ → ℝ → ℕ → ℝ) (hrun : Run cfg st φ) (hbox : InBox N (st 0).x)
    {G : ℕ → ℕ → ℝ} (hG : cfg.sys.Gamma = some G) {eta2 : ℝ} {Vf Vb : Matrix (Fin cfg.sys.N) (Fin cfg.sys.N) ℝ}
    {c : Coeffs ℝ cfg.sys.N N cfg.sys.L} (h : Numerical cfg.sys G cfg.dc eta2 Vf Vb c) (he : 0 < eta2) (pf : Vf.PosDef)
    (pb : Vb.PosDef) (K1 K2 : ℕ) (ds : ℤ) (limit : ℕ) (f : Batch ℝ cfg.sys.N N cfg.sys.L)
    (hf : Batch.new c K1 K2 eta2 ds limit = .ok f) (n : ℕ) (hlim : n + n / K1 + 1 ≤ limit) :
    ∃ u, call (f.next fun k => .ok (signal (st (k + 1)).c)) f.init n = .ok (u n 0) ∧
      ErrorWithin (toM cfg.sys.N cfg.sys.N cfg.sys.A) (toM cfg.sys.N cfg.sys.L cfg.sys.B) (toM cfg.sys.Nt cfg.sys.N cfg.sys.CT) T
        (n / K1 * K1 + (K1 + K2)) (fun k t l => cfg.input ((st k).ticks + 1) (t + (st k).t) l) u
        ((n / K1 * K1 + (K1 + K2) : ℕ) * T * (eta2 + N) + eta2 * (∑ i, ∑ j, |Vf⁻¹ i j| + ∑ i, ∑ j, |Vb⁻¹ i j|)) := by
  obtain ⟨hK1, -⟩ := batch_new_ok hf
  have e : n / K1 * K1 + n % K1 = n := Nat.div_add_mod' n K1
  have hm : n % K1 < K1 := Nat.mod_lt _ (by omega)
  obtain ⟨u, hs, hE⟩ := network_within cfg beta alpha rho kappa hg T tt2 hT h2 hdc hin hu hcont hκ hrho hdom
    (fun n hn => by have := hκT n hn; linarith) st φ hrun hbox hG h he pf pb (n / K1 * K1 + (K1 + K2))
  refine ⟨u, ?_, hE⟩
  rw [C32_batch_estimate c K1 K2 eta2 ds limit f hf _ (fun k => signal (st (k + 1)).c) n hlim (fun _ _ => rfl), hs n (by omega),
    show n / K1 * K1 + (K1 + K2) - n = K2 + (K1 - n % K1) by omega]

/-! ### A simulated integrator and its estimator -/

/-- The chain of one integrator (`src/cbadc/analog_system/chain_of_integrators.py:72-106` for `beta = kappa = [1]`, `rho = [0]`). -/
noncomputable abbrev exChain : Sys ℝ := ⟨1, 1, 1, 1, 1, fun r c => (if r = c then [(0 : ℝ)].getD r 0 else 0) + (if r = c + 1 then
  [(1 : ℝ)].tail.getD c 0 else 0), fun i _ => if i = 0 then [(1 : ℝ)].getD 0 0 else 0, fun i j => if i = j then 1 else 0,
  some (fun i j => if i = j then 1 else 0), some (gammaTOf 1 fun i j => if i = j then 1 else 0), fun _ _ => 0, fun _ _ => 0, fun _ _ => 0⟩

/-- Its control (`src/cbadc/digital_control/digital_control.py:56-85` with period 1/2 and the default waveform). -/
noncomputable abbrev exControl : DC ℝ 1 := ⟨1 / 2, 0, 0, fun _ => stepResponse 0, fun _ => 0⟩

/-- Its coefficients for `eta2 = 1` (an example of the results of `src/cbadc/digital_estimator/_filter_coefficients.py:167-197`). -/
noncomputable abbrev exCoeffs : Coeffs ℝ exChain.N 1 exChain.L :=
  ⟨NormedSpace.exp ((1 / 2 : ℝ) • tempAf exChain 1 1), NormedSpace.exp ((1 / 2 : ℝ) • -tempAb exChain 1 1),
    fun _ _ => 1 - Real.exp (-(1 / 2)), fun _ _ => -1 + Real.exp (-(1 / 2)), fun _ _ => 1 / 2⟩

theorem chain_cct : cct exChain 1 = 1 := by
  rw [cct_eq one_ne_zero]
  exact mat1_ext (by simp [Matrix.mul_apply, toM])

theorem chain_A : toM exChain.N exChain.N exChain.A = 0 := mat1_ext (by simp [toM])

theorem chain_tempAf : tempAf exChain 1 1 = -1 := by rw [tempAf, chain_cct, chain_A, Matrix.mul_one, zero_sub]

theorem chain_tempAb : tempAb exChain 1 1 = 1 := by rw [tempAb, chain_cct, chain_A, Matrix.mul_one, zero_add]

theorem chain_cares : Cares exChain 1 1 1 := by
  have hQ : careQ exChain = 1 := mat1_ext (by simp [careQ, Matrix.mul_apply, toM])
  have hA : careA exChain = 0 := by rw [careA, chain_A, transpose_zero]
  have hS : careB exChain * (careR exChain 1)⁻¹ * (careB exChain)ᵀ = 1 := by
    have := chain_cct
    rw [cct] at this
    rw [careB, transpose_transpose, Matrix.mul_assoc]
    exact this
  have h : (1 : Matrix (Fin exChain.N) (Fin exChain.N) ℝ) * careB exChain * (careR exChain 1)⁻¹ * (careB exChain)ᵀ * 1 = 1 := by
    rw [Matrix.mul_one, Matrix.one_mul, hS]
  constructor
  · refine ⟨?_, transpose_one⟩
    rw [h, hQ, hA, transpose_zero]
    simp
  · refine ⟨?_, transpose_one⟩
    rw [h, hQ, hA, neg_zero, transpose_zero]
    simp

theorem chain_drive (v : Fin 1 → ℝ) : toM exChain.N 1 (fun i j => if i = j then (1 : ℝ) else 0) *ᵥ v = fun _ => v 0 := by
  funext i
  have hi : i = (0 : Fin 1) := Subsingleton.elim (α := Fin 1) _ _
  subst hi
  simp [Matrix.mulVec, dotProduct, toM]

theorem chain_numerical : Numerical exChain (fun i j => if i = j then 1 else 0) exControl 1 1 1 exCoeffs := by
  have hir : ∀ t ∈ Icc (0 : ℝ) (1 / 2), impulseResponse exControl 0 t 0 = 1 := by
    intro t ht
    have h2 := ht.2
    rw [one_div] at h2
    simp [impulseResponse, stepResponse, ht.1, h2]
  refine ⟨chain_cares, ⟨rfl, rfl, ?_⟩, ?_, ?_⟩
  · have e : ((1 : Matrix (Fin exChain.N) (Fin exChain.N) ℝ) + 1) * exCoeffs.WTᵀ - toM exChain.N exChain.L exChain.B = 0 := by
      refine mat1_ext ?_
      simp only [Matrix.add_mul, Matrix.one_mul]
      show (1 / 2 : ℝ) + 1 / 2 - 1 = 0
      norm_num
    rw [e, Matrix.mul_zero]
  · intro m
    obtain rfl : m = 0 := Subsingleton.elim _ _
    refine ⟨fun t _ => 1 + -1 * Real.exp (-t), (flow_decay chain_tempAf 1 (-1) 0 _).congr fun t ht => ?_, by ext; simp,
      fun n => by simp; ring⟩
    rw [chain_drive, hir t ⟨ht.1, ht.2.le⟩]
  · intro m
    obtain rfl : m = 0 := Subsingleton.elim _ _
    refine ⟨fun t _ => -1 + 1 * Real.exp (-t), (flowLeft_decay (by rw [chain_tempAb]) (-1) 1 0 _).congr fun t ht => ?_, by ext; simp,
      fun n => by simp⟩
    have h2 : t ≤ 1 / 2 := ht.2
    rw [chain_drive, hir (1 / 2 - t) ⟨by linarith, by linarith [ht.1]⟩]
    ext; simp

open scoped ComplexOrder in
/-- the hypotheses of `C143_chain` are met by the simulation of C20 with the filters above, and the bound is an energy of
`K + 2` over `K` periods of length `1/2` -/
theorem ex_within (K : ℕ) : ∃ (cfg : Cfg 1) (st : ℕ → St 1) (φ : ℕ → ℝ → ℕ → ℝ) (_ : cfg.sys = exChain), cfg.dc = exControl ∧
    Run cfg st φ ∧ (st 0).x 0 = -(3 / 4) ∧
    ∃ u, (∀ k ≤ K, u k 0 =
        Cbadc.Spec.future exCoeffs.WT exCoeffs.Ab exCoeffs.Bb (Cbadc.Spec.ext fun k => signal (st (k + 1)).c) k (K - k) -
        Cbadc.Spec.past exCoeffs.WT exCoeffs.Af exCoeffs.Bf (Cbadc.Spec.ext fun k => signal (st (k + 1)).c) k k) ∧
      ErrorWithin (toM exChain.N exChain.N exChain.A) (toM exChain.N exChain.L exChain.B) (toM exChain.Nt exChain.N exChain.CT) (1 / 2) K
        (fun _ _ _ => 1 / 2) u (K + 2) := by
  obtain ⟨⟨sys, dc, input, hi⟩, st, φ, hs, hdc, hin, hinp, hr, hbox, h0⟩ := ex_simulation
  dsimp only at hs hdc hin hinp
  have hs' : sys = exChain := by
    have := chain_eq [1] [0] (by simp) rfl (fun _ _ => 1)
    have h := hs.symm.trans this
    rw [Except.ok.injEq] at h
    exact h
  have hdc' : dc = exControl := by
    simp only [DC.new, initIR, initOffsets, lt_self_iff_false, if_false, Except.ok.injEq] at hdc
    exact hdc.symm
  subst hs' hdc' hinp hin
  refine ⟨_, st, φ, rfl, rfl, hr, h0, ?_⟩
  obtain ⟨u, hu, z, R, hz, hR, hle⟩ := C143_chain [1] [0] (fun _ _ => 1) (by simp) rfl ⟨exChain, exControl, fun _ _ _ => 1 / 2, true⟩ hs (1 / 2) 0
    (by norm_num) le_rfl hdc rfl (fun _ _ => by norm_num [abs_of_pos]) (fun _ _ => continuous_const) (fun _ _ => one_ne_zero)
    (fun n hn => by simp at hn; subst hn; simp) (fun n hn => by simp at hn; subst hn; simp) (fun n _ => by norm_num) st φ hr hbox rfl
    chain_numerical one_pos PosDef.one PosDef.one K
  refine ⟨u, hu, z, R, hz, hR, hle.trans (le_of_eq ?_)⟩
  have e : ∑ i : Fin 1, ∑ j : Fin 1, |(1 : Matrix (Fin 1) (Fin 1) ℝ)⁻¹ i j| = 1 := by simp
  change (K : ℝ) * (1 / 2) * (1 + (1 : ℕ)) + 1 * ((∑ i : Fin 1, ∑ j : Fin 1, |(1 : Matrix (Fin 1) (Fin 1) ℝ)⁻¹ i j|) +
    ∑ i : Fin 1, ∑ j : Fin 1, |(1 : Matrix (Fin 1) (Fin 1) ℝ)⁻¹ i j|) = _
  rw [e]
  push_cast
  ring

/-- a leap-frog structure of one integrator is the same system, so the simulation above meets the hypotheses of `C143_leap_frog` too -/
example : leapFrog [1] [] [0] (.mat 1 1 fun _ _ => 1) = .ok exChain := by
  refine (leap_eq [1] [] [0] (by simp) rfl rfl fun _ _ => 1).trans ?_
  rw [Except.ok.injEq]
  have e : (fun r c => ((if c = r + 1 then ([] : List ℝ).getD r 0 else 0) + (if r = c + 1 then [(1 : ℝ)].tail.getD c 0 else 0)) +
      (if r = c then [(0 : ℝ)].getD r 0 else 0)) = exChain.A := by
    funext r c
    simp [add_comm]
  rw [e]
  rfl

/-- an estimator as in `C143_batch` for these coefficients, and a value within its limit -/
example : ∃ f, Batch.new exCoeffs (4 : ℕ) (2 : ℕ) 1 1 100 = .ok f ∧ 9 + 9 / 4 + 1 ≤ 100 := by
  unfold Batch.new
  norm_num

end Cbadc.EndToEnd
