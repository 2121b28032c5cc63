import Verif.Lemmas.Principle
import Verif.Props.FilterCoefficients

/-! # The principle of control-bounded conversion (C142) -/

namespace Cbadc.Filter

open Matrix Set Filter.Spec Cbadc.Analog Cbadc.Control Cbadc.Estimator Cbadc.Streams
open scoped ComplexOrder

variable {M : ℕ} {g : Sys ℝ} {G : ℕ → ℕ → ℝ} {dc : DC ℝ M} {eta2 : ℝ} {Vf Vb : Matrix (Fin g.N) (Fin g.N) ℝ}
  {c : Coeffs ℝ g.N M g.L}

/-- **C142** A converter is run over `K` periods: `v` is the input, `x` the trajectory of the analog system, `s` the control
decisions, which may be anything.  The estimates are the samples of an input `u` such that the error `v - u`, sent through
the analog system without any controls, leads to the error `x - xh` of the states, and the cost of the error is the cost of
the run minus the cost of the estimate. -/
theorem C142_error (h : Numerical g G dc eta2 Vf Vb c) (he : 0 < eta2) (hT : 0 ≤ dc.T) (pf : Vf.PosDef) (pb : Vb.PosDef)
    (hd : dc.tDelay = 0) (h0 : ∀ m, (dc.ir m).t0 = 0) (K : ℕ) (s : ℕ → Fin M → ℝ) (st : ℕ → State ℝ M)
    (hst : ∀ k, (st k).cur = valued (s k)) {v : ℕ → ℝ → Fin g.L → ℝ} {x : ℕ → ℝ → Fin g.N → ℝ} {J : ℕ → ℝ → ℝ}
    (hx : Explains (toM g.N g.N g.A) (toM g.N g.L g.B) (fun k t => toM g.N M G *ᵥ contribution dc (st k) t) dc.T K v x)
    (hJ : Integrates dc.T K (fun k t => power (toM g.Nt g.N g.CT) eta2 (v k t) (x k t)) J) :
    ∃ (u : ℕ → ℝ → Fin g.L → ℝ) (xh : ℕ → ℝ → Fin g.N → ℝ) (Jh E : ℕ → ℝ → ℝ),
      (∀ k ≤ K, u k 0 = Cbadc.Spec.future c.WT c.Ab c.Bb (Cbadc.Spec.ext s) k (K - k) -
        Cbadc.Spec.past c.WT c.Af c.Bf (Cbadc.Spec.ext s) k k) ∧
      Explains (toM g.N g.N g.A) (toM g.N g.L g.B) (fun _ _ => 0) dc.T K (fun k t => v k t - u k t) (fun k t => x k t - xh k t) ∧
      Integrates dc.T K (fun k t => power (toM g.Nt g.N g.CT) eta2 (u k t) (xh k t)) Jh ∧
      Integrates dc.T K (fun k t => power (toM g.Nt g.N g.CT) eta2 (v k t - u k t) (x k t - xh k t)) E ∧
      0 ≤ total Vf Vb dc.T K xh Jh ∧ 0 ≤ total Vf Vb dc.T K (fun k t => x k t - xh k t) E ∧
      total Vf Vb dc.T K x J = total Vf Vb dc.T K xh Jh + total Vf Vb dc.T K (fun k t => x k t - xh k t) E := by
  obtain ⟨u, xh, Jh, hE, hI, hP, hs⟩ := numerical_pythagoras h he hT pf pb K fun k => valued (s k)
  have hq : ∀ k < K, ∀ t ∈ Ico 0 dc.T, toM g.N M G *ᵥ contribution dc (st k) t =
      toM g.N M G *ᵥ fun m => (dc.ir m).f t * valued (s k) m := fun k _ t ht => by rw [contribution_eq hd h0 (hst k) ht]
  obtain ⟨E, hE', heq⟩ := hP v x J (hx.congr hq) hJ
  refine ⟨u, xh, Jh, E, fun k hk => ?_, explains_sub hx hE fun k hk t ht => by rw [hq k hk t ht, sub_self], hI, hE',
    total_nonneg hT pf pb hI (fun k _ t _ => power_nonneg he _ _) _, total_nonneg hT pf pb hE' (fun k _ t _ => power_nonneg he _ _) _, heq⟩
  rw [hs k hk, mulVec_sub, fSum_past, bSum_future]

/-- **C142** The more the outputs are bounded, the better: if the power of the input never exceeds `U` and the power of the
observed outputs never exceeds `Y`, then the error, sent through the analog system without controls, leads to outputs whose
mean power is at most `eta2 U + Y`, up to a term that only depends on the first and the last state. -/
theorem C142_bound (h : Numerical g G dc eta2 Vf Vb c) (he : 0 < eta2) (hT : 0 ≤ dc.T) (pf : Vf.PosDef) (pb : Vb.PosDef)
    (hd : dc.tDelay = 0) (h0 : ∀ m, (dc.ir m).t0 = 0) (K : ℕ) (s : ℕ → Fin M → ℝ) (st : ℕ → State ℝ M)
    (hst : ∀ k, (st k).cur = valued (s k)) {v : ℕ → ℝ → Fin g.L → ℝ} {x : ℕ → ℝ → Fin g.N → ℝ} {J : ℕ → ℝ → ℝ}
    (hx : Explains (toM g.N g.N g.A) (toM g.N g.L g.B) (fun k t => toM g.N M G *ᵥ contribution dc (st k) t) dc.T K v x)
    (hJ : Integrates dc.T K (fun k t => power (toM g.Nt g.N g.CT) eta2 (v k t) (x k t)) J) {U Y : ℝ}
    (hU : ∀ k < K, ∀ t ∈ Ico 0 dc.T, v k t ⬝ᵥ v k t ≤ U)
    (hY : ∀ k < K, ∀ t ∈ Ico 0 dc.T, (toM g.Nt g.N g.CT *ᵥ x k t) ⬝ᵥ (toM g.Nt g.N g.CT *ᵥ x k t) ≤ Y) :
    ∃ (u : ℕ → ℝ → Fin g.L → ℝ) (z : ℕ → ℝ → Fin g.N → ℝ),
      (∀ k ≤ K, u k 0 = Cbadc.Spec.future c.WT c.Ab c.Bb (Cbadc.Spec.ext s) k (K - k) -
        Cbadc.Spec.past c.WT c.Af c.Bf (Cbadc.Spec.ext s) k k) ∧
      Explains (toM g.N g.N g.A) (toM g.N g.L g.B) (fun _ _ => 0) dc.T K (fun k t => v k t - u k t) z ∧
      ∀ R, Integrates dc.T K (fun k t => (toM g.Nt g.N g.CT *ᵥ z k t) ⬝ᵥ (toM g.Nt g.N g.CT *ᵥ z k t)) R →
        ∑ k ∈ Finset.range K, R k dc.T ≤ K * dc.T * (eta2 * U + Y) +
          eta2 * (x 0 0 ⬝ᵥ Vf⁻¹ *ᵥ x 0 0 + x K 0 ⬝ᵥ Vb⁻¹ *ᵥ x K 0) := by
  obtain ⟨u, xh, Jh, E, hs, hz, hI, hE, n1, n2, heq⟩ := C142_error h he hT pf pb hd h0 K s st hst hx hJ
  refine ⟨u, _, hs, hz, fun R hR => ?_⟩
  have b1 := total_le hT hJ (b := U + 1 / eta2 * Y) (fun k hk t ht => by
    unfold power
    exact add_le_add (hU k hk t ht) (mul_le_mul_of_nonneg_left (hY k hk t ht) (by positivity))) Vf Vb x
  have b2 : ∀ k < K, R k dc.T ≤ eta2 * E k dc.T := by
    intro k hk
    have h1 : Integrates dc.T K (fun k t => eta2 * power (toM g.Nt g.N g.CT) eta2 (v k t - u k t) (x k t - xh k t) -
        (toM g.Nt g.N g.CT *ᵥ (x k t - xh k t)) ⬝ᵥ (toM g.Nt g.N g.CT *ᵥ (x k t - xh k t))) fun k t => eta2 * E k t - R k t :=
      ⟨fun k hk => by rw [hE.start k hk, hR.start k hk]; simp, fun k hk => (continuousOn_const.mul (hE.cont k hk)).sub (hR.cont k hk),
        fun k hk t ht => ((hE.deriv k hk t ht).const_mul eta2).sub (hR.deriv k hk t ht)⟩
    have h2 := integrates_nonneg hT h1 (fun k _ t _ => by
      have hn : 0 ≤ (v k t - u k t) ⬝ᵥ (v k t - u k t) := Finset.sum_nonneg fun i _ => mul_self_nonneg _
      have h3 : 0 ≤ eta2 * ((v k t - u k t) ⬝ᵥ (v k t - u k t)) := mul_nonneg he.le hn
      unfold power
      rw [mul_add, ← mul_assoc, mul_one_div_cancel he.ne', one_mul]
      linarith) hk
    linarith
  have b3 : ∑ k ∈ Finset.range K, R k dc.T ≤ eta2 * total Vf Vb dc.T K (fun k t => x k t - xh k t) E := by
    refine (Finset.sum_le_sum fun k hk => b2 k (Finset.mem_range.1 hk)).trans ?_
    rw [← Finset.mul_sum]
    refine mul_le_mul_of_nonneg_left ?_ he.le
    have q1 := quad_nonneg pf (x 0 0 - xh 0 0)
    have q2 := quad_nonneg pb (x K 0 - xh K 0)
    unfold total
    linarith
  refine b3.trans ((mul_le_mul_of_nonneg_left (show _ ≤ total Vf Vb dc.T K x J by linarith) he.le).trans
    ((mul_le_mul_of_nonneg_left b1 he.le).trans (le_of_eq ?_)))
  field_simp
  ring

/-- **C142** Two runs of a converter, with any decisions and any inputs: the difference of their estimates is the samples of a signal
that costs no more than the difference of the inputs with the difference of the outputs. -/
theorem C142_difference (h : Numerical g G dc eta2 Vf Vb c) (he : 0 < eta2) (hT : 0 ≤ dc.T) (pf : Vf.PosDef) (pb : Vb.PosDef)
    (hd : dc.tDelay = 0) (h0 : ∀ m, (dc.ir m).t0 = 0) (K : ℕ) (s s' : ℕ → Fin M → ℝ) (st st' : ℕ → State ℝ M)
    (hst : ∀ k, (st k).cur = valued (s k)) (hst' : ∀ k, (st' k).cur = valued (s' k))
    {v v' : ℕ → ℝ → Fin g.L → ℝ} {x x' : ℕ → ℝ → Fin g.N → ℝ} {J : ℕ → ℝ → ℝ}
    (hx : Explains (toM g.N g.N g.A) (toM g.N g.L g.B) (fun k t => toM g.N M G *ᵥ contribution dc (st k) t) dc.T K v x)
    (hx' : Explains (toM g.N g.N g.A) (toM g.N g.L g.B) (fun k t => toM g.N M G *ᵥ contribution dc (st' k) t) dc.T K v' x')
    (hJ : Integrates dc.T K (fun k t => power (toM g.Nt g.N g.CT) eta2 (v k t - v' k t) (x k t - x' k t)) J) :
    ∃ (u : ℕ → ℝ → Fin g.L → ℝ) (xh : ℕ → ℝ → Fin g.N → ℝ) (Jh : ℕ → ℝ → ℝ),
      (∀ k ≤ K, u k 0 = (Cbadc.Spec.future c.WT c.Ab c.Bb (Cbadc.Spec.ext s) k (K - k) -
          Cbadc.Spec.past c.WT c.Af c.Bf (Cbadc.Spec.ext s) k k) -
        (Cbadc.Spec.future c.WT c.Ab c.Bb (Cbadc.Spec.ext s') k (K - k) -
          Cbadc.Spec.past c.WT c.Af c.Bf (Cbadc.Spec.ext s') k k)) ∧
      Integrates dc.T K (fun k t => power (toM g.Nt g.N g.CT) eta2 (u k t) (xh k t)) Jh ∧
      total Vf Vb dc.T K xh Jh ≤ total Vf Vb dc.T K (fun k t => x k t - x' k t) J := by
  obtain ⟨u, xh, Jh, hE, hI, hP, hs⟩ := numerical_pythagoras h he hT pf pb K fun k => valued (s k) - valued (s' k)
  have hq : ∀ k < K, ∀ t ∈ Ico 0 dc.T, (toM g.N M G *ᵥ fun m => (dc.ir m).f t * (valued (s k) - valued (s' k)) m) =
      toM g.N M G *ᵥ contribution dc (st k) t - toM g.N M G *ᵥ contribution dc (st' k) t := by
    intro k _ t ht
    rw [contribution_eq hd h0 (hst k) ht, contribution_eq hd h0 (hst' k) ht, ← mulVec_sub]
    refine congrArg _ (funext fun m => ?_)
    simp only [Pi.sub_apply]
    ring
  obtain ⟨E, hE', heq⟩ := hP _ _ J (explains_sub hx hx' hq) hJ
  have := total_nonneg hT pf pb hE' (fun k _ t _ => power_nonneg he _ _) (fun k t => x k t - x' k t - xh k t)
  refine ⟨u, xh, Jh, fun k hk => ?_, hI, by linarith⟩
  rw [hs k hk, bSum_sub, fSum_sub, ← fSum_past, ← fSum_past, ← bSum_future, ← bSum_future]
  simp only [mulVec_sub]
  abel

/-- **C142** The decisions themselves do not matter: two runs with the same input whose observed outputs agree, and which start and
end in the same states, have the same estimates, whatever the decisions were. -/
theorem C142_decisions (h : Numerical g G dc eta2 Vf Vb c) (he : 0 < eta2) (hT : 0 < dc.T) (pf : Vf.PosDef) (pb : Vb.PosDef)
    (hd : dc.tDelay = 0) (h0 : ∀ m, (dc.ir m).t0 = 0) (K : ℕ) (s s' : ℕ → Fin M → ℝ) (st st' : ℕ → State ℝ M)
    (hst : ∀ k, (st k).cur = valued (s k)) (hst' : ∀ k, (st' k).cur = valued (s' k))
    {v : ℕ → ℝ → Fin g.L → ℝ} {x x' : ℕ → ℝ → Fin g.N → ℝ}
    (hx : Explains (toM g.N g.N g.A) (toM g.N g.L g.B) (fun k t => toM g.N M G *ᵥ contribution dc (st k) t) dc.T K v x)
    (hx' : Explains (toM g.N g.N g.A) (toM g.N g.L g.B) (fun k t => toM g.N M G *ᵥ contribution dc (st' k) t) dc.T K v x')
    (hy : ∀ k < K, ∀ t ∈ Ico 0 dc.T, toM g.Nt g.N g.CT *ᵥ x k t = toM g.Nt g.N g.CT *ᵥ x' k t)
    (ha : x 0 0 = x' 0 0) (hb : x K 0 = x' K 0) {k : ℕ} (hk : k < K) :
    Cbadc.Spec.future c.WT c.Ab c.Bb (Cbadc.Spec.ext s) k (K - k) - Cbadc.Spec.past c.WT c.Af c.Bf (Cbadc.Spec.ext s) k k =
      Cbadc.Spec.future c.WT c.Ab c.Bb (Cbadc.Spec.ext s') k (K - k) - Cbadc.Spec.past c.WT c.Af c.Bf (Cbadc.Spec.ext s') k k := by
  have hJ : Integrates dc.T K (fun k t => power (toM g.Nt g.N g.CT) eta2 (v k t - v k t) (x k t - x' k t)) fun _ _ => 0 :=
    integrates_congr integrates_const_zero fun k hk t ht => by
      unfold power
      rw [mulVec_sub, hy k hk t ht, sub_self, sub_self]
      simp
  obtain ⟨u, xh, Jh, hs, hI, hle⟩ := C142_difference h he hT.le pf pb hd h0 K s s' st st' hst hst' hx hx' hJ
  have hz : total Vf Vb dc.T K (fun k t => x k t - x' k t) (fun _ _ => 0) = 0 := by
    unfold total
    simp [ha, hb]
  have := total_zero he hT.le pf pb hI (hle.trans hz.le) k hk 0 ⟨le_rfl, hT⟩
  rw [hs k hk.le] at this
  exact sub_eq_zero.1 this

/-- **C142** In particular the batch estimator returns the same value for both runs. -/
theorem C142_batch (h : Numerical g G dc eta2 Vf Vb c) (he : 0 < eta2) (hT : 0 < dc.T) (pf : Vf.PosDef) (pb : Vb.PosDef)
    (hd : dc.tDelay = 0) (h0 : ∀ m, (dc.ir m).t0 = 0) (K1 K2 : ℕ) (ds : ℤ) (limit : ℕ) (f : Batch ℝ g.N M g.L)
    (hf : Batch.new c K1 K2 eta2 ds limit = .ok f) (src src' : ℕ → Res (Fin M → ℝ)) (s s' : ℕ → Fin M → ℝ) (st st' : ℕ → State ℝ M)
    (hst : ∀ k, (st k).cur = valued (s k)) (hst' : ∀ k, (st' k).cur = valued (s' k)) (n : ℕ) (hlim : n + n / K1 + 1 ≤ limit)
    (hs : ∀ j < n / K1 * K1 + (K1 + K2), src j = .ok (s j)) (hs' : ∀ j < n / K1 * K1 + (K1 + K2), src' j = .ok (s' j))
    {v : ℕ → ℝ → Fin g.L → ℝ} {x x' : ℕ → ℝ → Fin g.N → ℝ}
    (hx : Explains (toM g.N g.N g.A) (toM g.N g.L g.B) (fun k t => toM g.N M G *ᵥ contribution dc (st k) t) dc.T
      (n / K1 * K1 + (K1 + K2)) v x)
    (hx' : Explains (toM g.N g.N g.A) (toM g.N g.L g.B) (fun k t => toM g.N M G *ᵥ contribution dc (st' k) t) dc.T
      (n / K1 * K1 + (K1 + K2)) v x')
    (hy : ∀ k < n / K1 * K1 + (K1 + K2), ∀ t ∈ Ico 0 dc.T, toM g.Nt g.N g.CT *ᵥ x k t = toM g.Nt g.N g.CT *ᵥ x' k t)
    (ha : x 0 0 = x' 0 0) (hb : x (n / K1 * K1 + (K1 + K2)) 0 = x' (n / K1 * K1 + (K1 + K2)) 0) :
    call (f.next src) f.init n = call (f.next src') f.init n := by
  obtain ⟨hK1, -⟩ := batch_new_ok hf
  have e : n / K1 * K1 + n % K1 = n := Nat.div_add_mod' n K1
  have hm : n % K1 < K1 := Nat.mod_lt _ (by omega)
  have key := C142_decisions h he hT pf pb hd h0 (n / K1 * K1 + (K1 + K2)) s s' st st' hst hst' hx hx' hy ha hb (k := n) (by omega)
  rw [show n / K1 * K1 + (K1 + K2) - n = K2 + (K1 - n % K1) by omega] at key
  rw [C32_batch_estimate c K1 K2 eta2 ds limit f hf src s n hlim hs, C32_batch_estimate c K1 K2 eta2 ds limit f hf src' s' n hlim hs', key]

/-! ### Examples: the integrator `x' = u - s`, and the integrator with two controls of opposite signs -/

/-- the state of a control that has decided `s` (an example of `src/cbadc/digital_control/digital_control.py:56-85`) -/
noncomputable abbrev exSt {M : ℕ} (s : Fin M → ℝ) : State ℝ M := ⟨fun _ => 0, valued s, fun _ => 0⟩

/-- a state that moves along straight lines -/
theorem ex_lines {K : ℕ} {q : ℕ → ℝ → Fin 1 → ℝ} {v a b : ℕ → ℝ} (hq : ∀ k < K, ∀ t ∈ Ico (0 : ℝ) 1, q k t = fun _ => b k - v k)
    (hj : ∀ k < K, a k + b k = a (k + 1)) :
    Explains (toM 1 1 (exSys 0).A) (toM 1 1 (exSys 0).B) q 1 K (fun k _ _ => v k) (fun k t _ => a k + b k * t) := by
  refine ⟨fun k hk => ⟨continuousOn_pi.2 fun _ => by fun_prop, fun t ht => hasDerivWithinAt_pi.2 fun i => ?_⟩, fun k hk => ?_⟩
  · have h := (((hasDerivAt_id t).const_mul (b k)).const_add (a k)).hasDerivWithinAt (s := Ici t)
    refine h.congr_deriv ?_
    rw [hq k hk t ht]
    simp [Matrix.mulVec, dotProduct, toM]
  · funext i
    show a k + b k * 1 = a (k + 1) + b (k + 1) * 0
    rw [mul_one, mul_zero, add_zero, hj k hk]

/-- the integrated power of such a run -/
theorem ex_power {K : ℕ} (v a b : ℕ → ℝ) : Integrates 1 K
    (fun k t => power (toM 1 1 (exSys 0).CT) 1 (fun _ : Fin 1 => v k) (fun _ : Fin 1 => a k + b k * t))
    fun k t => (v k * v k + a k * a k) * t + a k * b k * (t * t) + b k * b k / 3 * (t * t * t) := by
  refine ⟨fun k _ => by simp, fun k _ => by fun_prop, fun k _ t _ => ?_⟩
  have i := hasDerivAt_id t
  have h := ((i.const_mul (v k * v k + a k * a k)).add ((i.mul i).const_mul (a k * b k))).add (((i.mul i).mul i).const_mul (b k * b k / 3))
  refine h.hasDerivWithinAt.congr_deriv ?_
  simp [power, Matrix.mulVec, dotProduct, toM]
  ring

/-- the input 1 / 2 and the decisions 1, 0: the state falls by 1 / 2 and then rises by 3 / 2 -/
theorem ex_run : Explains (toM 1 1 (exSys 0).A) (toM 1 1 (exSys 0).B)
    (fun k t => toM 1 1 (fun _ _ => -1) *ᵥ contribution (exDC 0 (.step 0 1)) (exSt fun _ => if k = 0 then 1 else 0) t) 1 2
    (fun _ _ _ => 1 / 2) (fun k t _ => (if k = 0 then 0 else if k = 1 then -1 / 2 else 1) + (if k = 0 then -1 / 2 else 3 / 2) * t) := by
  refine ex_lines (v := fun _ => 1 / 2) (a := fun k => if k = 0 then 0 else if k = 1 then -1 / 2 else 1)
    (b := fun k => if k = 0 then -1 / 2 else 3 / 2) (fun k hk t ht => ?_) fun k hk => ?_
  · rw [contribution_eq rfl (fun _ => rfl) rfl ht, ex_drive]
    funext i
    have : k = 0 ∨ k = 1 := by omega
    rcases this with rfl | rfl <;> simp [valued, Dac.ir, Dac.eval, ht.1] <;> norm_num
  · have : k = 0 ∨ k = 1 := by omega
    rcases this with rfl | rfl <;> norm_num

example : ∃ (u : ℕ → ℝ → Fin 1 → ℝ) (xh : ℕ → ℝ → Fin 1 → ℝ),
    Explains (toM 1 1 (exSys 0).A) (toM 1 1 (exSys 0).B) (fun _ _ => 0) 1 2 (fun k t => (fun _ => 1 / 2) - u k t)
      (fun k t => (fun _ => (if k = 0 then 0 else if k = 1 then -1 / 2 else 1) + (if k = 0 then -1 / 2 else 3 / 2) * t) - xh k t) := by
  obtain ⟨u, xh, _, _, _, h, _⟩ := C142_error (ex_numerical (d := 0) 0) one_pos zero_le_one PosDef.one PosDef.one rfl (fun _ => rfl) 2
    (fun k _ => if k = 0 then 1 else 0) (fun k => exSt fun _ => if k = 0 then 1 else 0) (fun _ => rfl) ex_run (ex_power _ _ _)
  exact ⟨u, xh, h⟩

example : ∃ (u : ℕ → ℝ → Fin 1 → ℝ) (z : ℕ → ℝ → Fin 1 → ℝ),
    Explains (toM 1 1 (exSys 0).A) (toM 1 1 (exSys 0).B) (fun _ _ => 0) 1 2 (fun k t => (fun _ => 1 / 2) - u k t) z := by
  obtain ⟨u, z, _, h, _⟩ := C142_bound (U := 1 / 4) (Y := 1) (ex_numerical (d := 0) 0) one_pos zero_le_one PosDef.one PosDef.one rfl
    (fun _ => rfl) 2 (fun k _ => if k = 0 then 1 else 0) (fun k => exSt fun _ => if k = 0 then 1 else 0) (fun _ => rfl) ex_run (ex_power _ _ _)
    (fun k _ t _ => by simp [dotProduct]; norm_num) (fun k hk t ht => by
      have ht0 := ht.1
      have ht1 := ht.2
      have : k = 0 ∨ k = 1 := by omega
      rcases this with rfl | rfl <;> simp [Matrix.mulVec, dotProduct, toM]
      · have ht1 : t < 1 := ht1
        nlinarith
      · have ht1 : t < 1 := ht1
        nlinarith)
  exact ⟨u, z, h⟩

/-- the signs of two controls that act against each other (an example) -/
noncomputable abbrev exG2 : ℕ → ℕ → ℝ := fun _ m => if m = 0 then -1 else 1

/-- two controls with the period one and a constant waveform (an example of `src/cbadc/digital_control/digital_control.py:56-85`) -/
noncomputable abbrev exDC2 : DC ℝ 2 := ⟨1, 0, 0, fun _ => (Dac.step 0 1).ir, fun _ => 0⟩

/-- the coefficients of the integrator with two such controls (an example of the results of
`src/cbadc/digital_estimator/_filter_coefficients.py:167-197`) -/
noncomputable abbrev exC2 : Coeffs ℝ (exSys 0).N 2 (exSys 0).L :=
  ⟨NormedSpace.exp ((1 : ℝ) • tempAf (exSys 0) 1 1), NormedSpace.exp ((1 : ℝ) • -tempAb (exSys 0) 1 1),
    Matrix.of fun _ m => exG2 0 m * (1 - Real.exp (-1)), Matrix.of fun _ m => exG2 0 m * (-1 + Real.exp (-1)), fun _ _ => 1 / 2⟩

theorem ex_drive2 (v : Fin 2 → ℝ) : toM 1 2 exG2 *ᵥ v = fun _ => v 1 - v 0 := by
  ext i
  simp [Matrix.mulVec, dotProduct, toM, Fin.sum_univ_two]
  ring

theorem ex_numerical2 : Numerical (exSys 0) exG2 exDC2 1 1 1 exC2 := by
  have hir : ∀ m, ∀ t ∈ Icc (0 : ℝ) 1, toM 1 2 exG2 *ᵥ impulseResponse exDC2 m t = fun _ => exG2 0 m := by
    intro m t ht
    rw [ex_drive2]
    funext i
    fin_cases m <;> simp [impulseResponse, Dac.ir, Dac.eval, ht.1, ht.2]
  refine ⟨ex_cares, ⟨rfl, rfl, (ex_common 0 0).WT⟩, ?_, ?_⟩
  · intro m
    refine ⟨fun t _ => exG2 0 m + -exG2 0 m * Real.exp (-t), (flow_decay ex_tempAf (exG2 0 m) _ 0 1).congr fun t ht => ?_, by ext; simp,
      fun n => by fin_cases m <;> simp [exG2] <;> ring⟩
    exact (hir m t ⟨ht.1, ht.2.le⟩).symm
  · intro m
    refine ⟨fun t _ => -exG2 0 m + exG2 0 m * Real.exp (-t), (flowLeft_decay (by rw [ex_tempAb]) (-exG2 0 m) _ 0 1).congr fun t ht => ?_,
      by ext; simp, fun n => by fin_cases m <;> simp [exG2]; ring⟩
    have := hir m (1 - t) ⟨by linarith [ht.2], by linarith [ht.1]⟩
    show _ = -(toM 1 2 exG2 *ᵥ impulseResponse exDC2 m (1 - t))
    rw [this]
    rfl

/-- the input 1 / 2 while both controls always decide the same -/
theorem ex_run2 (b : ℕ → ℝ) (K : ℕ) : Explains (toM 1 1 (exSys 0).A) (toM 1 1 (exSys 0).B)
    (fun k t => toM 1 2 exG2 *ᵥ contribution exDC2 (exSt fun _ => b k) t) 1 K (fun _ _ _ => 1 / 2) (fun k t _ => k / 2 + 1 / 2 * t) := by
  refine ex_lines (v := fun _ => 1 / 2) (a := fun k => k / 2) (b := fun _ => 1 / 2) (fun k hk t ht => ?_) fun k hk => ?_
  · rw [contribution_eq rfl (fun _ => rfl) rfl ht, ex_drive2]
    funext i
    simp [valued]
  · push_cast
    ring

/-- one run decides 1, 1, 1, ..., the other one 0, 1, 0, ...: neither changes the state -/
example (k : ℕ) (hk : k < 5) :
    Cbadc.Spec.future exC2.WT exC2.Ab exC2.Bb (Cbadc.Spec.ext fun _ _ => 1) k (5 - k) -
        Cbadc.Spec.past exC2.WT exC2.Af exC2.Bf (Cbadc.Spec.ext fun _ _ => 1) k k =
      Cbadc.Spec.future exC2.WT exC2.Ab exC2.Bb (Cbadc.Spec.ext fun k _ => (k % 2 : ℕ)) k (5 - k) -
        Cbadc.Spec.past exC2.WT exC2.Af exC2.Bf (Cbadc.Spec.ext fun k _ => (k % 2 : ℕ)) k k :=
  C142_decisions ex_numerical2 one_pos one_pos PosDef.one PosDef.one rfl (fun _ => rfl) 5 _ _ (fun _ => exSt fun _ => 1)
    (fun k => exSt fun _ => (k % 2 : ℕ)) (fun _ => rfl) (fun _ => rfl) (ex_run2 (fun _ => 1) 5) (ex_run2 (fun k => (k % 2 : ℕ)) 5)
    (fun _ _ _ _ => rfl) rfl rfl hk

example : ∃ f, Batch.new exC2 2 1 (1 : ℝ) 1 100 = .ok f ∧
    call (f.next fun _ => .ok fun _ => 1) f.init 3 = call (f.next fun k => .ok fun _ => (k % 2 : ℕ)) f.init 3 := by
  obtain ⟨f, hf⟩ : ∃ f, Batch.new exC2 2 1 (1 : ℝ) 1 100 = .ok f :=
    ((C32_batch_accepts _ 2 1 (1 : ℝ) 1 100).1.2 ⟨by norm_num, by norm_num, by norm_num, rfl⟩)
  exact ⟨f, hf, C142_batch ex_numerical2 one_pos one_pos PosDef.one PosDef.one rfl (fun _ => rfl) 2 1 1 100 f hf _ _ (fun _ _ => 1)
    (fun k _ => (k % 2 : ℕ)) (fun _ => exSt fun _ => 1) (fun k => exSt fun _ => (k % 2 : ℕ)) (fun _ => rfl) (fun _ => rfl) 3 (by norm_num)
    (fun _ _ => rfl) (fun _ _ => rfl) (ex_run2 (fun _ => 1) _) (ex_run2 (fun k => (k % 2 : ℕ)) _) (fun _ _ _ _ => rfl) rfl rfl⟩

/-- both controls decide 1 in one run, and 0 in the other one -/
example : ∃ (u : ℕ → ℝ → Fin 1 → ℝ) (xh : ℕ → ℝ → Fin 1 → ℝ) (Jh : ℕ → ℝ → ℝ),
    Integrates 1 4 (fun k t => power (toM 1 1 (exSys 0).CT) 1 (u k t) (xh k t)) Jh := by
  obtain ⟨u, xh, Jh, _, h, _⟩ := C142_difference (J := fun _ _ => 0) ex_numerical2 one_pos zero_le_one PosDef.one PosDef.one rfl (fun _ => rfl) 4
    (fun _ _ => 1) (fun _ _ => 0) (fun _ => exSt fun _ => 1) (fun _ => exSt fun _ => 0) (fun _ => rfl) (fun _ => rfl)
    (ex_run2 (fun _ => 1) 4) (ex_run2 (fun _ => 0) 4)
    (integrates_congr integrates_const_zero fun k hk t ht => by simp [power])
  exact ⟨u, xh, Jh, h⟩

end Cbadc.Filter
