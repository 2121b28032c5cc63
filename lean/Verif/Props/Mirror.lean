import Verif.Lemmas.Mirror
import Verif.Props.Estimator
import Verif.Props.RunExists
import Verif.Props.Simulator

/-!
# C163: a converter treats an input and its negative alike

Negative inputs, negative comparator offsets and the negative starting state give the negative states, the complementary control
signals and the negative estimates -- unless a comparator sees a tie, which it decides in favour of one.
-/

namespace Cbadc.Mirror

open Set Cbadc.Analog Cbadc.Control Cbadc.Estimator Cbadc.Simulate Cbadc.Streams

variable {M : ℕ}

/-- **C163** Simulations: from the mirrored state, with the negative inputs and offsets, the mirror image of a simulation without ties is
a simulation. -/
theorem C163_simulation (c : Cfg M) (s : ℕ → St M) (φ : ℕ → ℝ → ℕ → ℝ) (hr : Run c s φ) (hn : ∀ k, NoTie c (s k)) :
    Run (config c) (fun k => st c (k == 0) (s k)) (fun k τ n => -φ k τ n) :=
  fun k => period c (k == 0) (hn k) (hr k)

section estimates

variable {K : Type*} [CommRing K] [LinearOrder K] {N L : ℕ}

/-- **C163** Estimates: complementary control signals give the negative estimates, for every filter (the offset of the filter with finite
response is negated as well). -/
theorem C163_estimates (c : Coeffs K N M L) (s : ℕ → Fin M → K) (K1 K2 : ℕ) (eta2 : K) (ds limit n : ℕ) (offset : Option (Fin L → K)) :
    (∀ f f' : FIR K M L, FIR.new c K1 K2 eta2 false ds limit offset = .ok f →
      FIR.new c K1 K2 eta2 false ds limit (offset.map fun o => -o) = .ok f' → ds ≤ K1 + K2 → limit = 0 ∨ ds * (n + 1) ≤ limit →
      ∃ u, call (f.next fun k => .ok (s k)) FIRState.init n = .ok u ∧ call (f'.next fun k => .ok (1 - s k)) FIRState.init n = .ok (-u)) ∧
    (∀ f : IIR K N M L, IIR.new c K2 eta2 ds limit = .ok f → 1 ≤ K2 → 1 ≤ ds → limit = 0 ∨ ds * n + 1 ≤ limit →
      ∃ u, call (f.next fun k => .ok (s k)) IIRState.init n = .ok u ∧ call (f.next fun k => .ok (1 - s k)) IIRState.init n = .ok (-u)) ∧
    ∀ f : Batch K N M L, Batch.new c K1 K2 eta2 1 limit = .ok f → n + n / K1 + 1 ≤ limit →
      ∃ u, call (f.next fun k => .ok (s k)) f.init n = .ok u ∧ call (f.next fun k => .ok (1 - s k)) f.init n = .ok (-u) := by
  have he : Cbadc.Spec.ext (fun k => 1 - s k) = fun j => -Cbadc.Spec.ext s j := ext_neg s
  refine ⟨fun f f' hf hf' hds hl => ⟨_, C31_fir_estimate c K1 K2 eta2 false ds limit offset f hf _ s n hds hl fun _ _ => rfl, ?_⟩,
    fun f hf h2 hds hl => ⟨_, C33_iir_estimate c K2 eta2 ds limit f hf h2 hds _ s n (ds * n + 1) (by push_cast; omega) hl fun _ _ => rfl, ?_⟩,
    fun f hf hl => ⟨_, C32_batch_estimate c K1 K2 eta2 1 limit f hf _ s n hl fun _ _ => rfl, ?_⟩⟩
  · rw [C31_fir_estimate c K1 K2 eta2 false ds limit _ f' hf' _ (fun k => 1 - s k) n hds hl fun _ _ => rfl, he, past_neg, future_neg]
    have : (offset.map fun o => -o).getD 0 = -offset.getD 0 := by cases offset <;> simp
    rw [this]
    congr 1
    abel
  · rw [C33_iir_estimate c K2 eta2 ds limit f hf h2 hds _ (fun k => 1 - s k) n (ds * n + 1) (by push_cast; omega) hl fun _ _ => rfl, he, past_neg,
      future_neg]
    congr 1
    abel
  · rw [C32_batch_estimate c K1 K2 eta2 1 limit f hf _ (fun k => 1 - s k) n hl fun _ _ => rfl, he, past_neg, future_neg]
    congr 1
    abel

end estimates

/-- **C163** The whole converter: any simulation with the negative inputs and offsets, from the negative start, has the negative states and
the complementary control signals of the given one, and every estimate is the negative one. -/
theorem C163_converter {N L : ℕ} (c : Cfg M) (hin : c.hasInput = true) (hT : 0 < c.dc.T) (hd : ∀ m, Decided c m) {s s' : ℕ → St M}
    {φ φ' : ℕ → ℝ → ℕ → ℝ} (hr : Run c s φ) (hn : ∀ k, NoTie c (s k)) (hr' : Run (config c) s' φ')
    (h0 : (∀ n < c.sys.N, (s' 0).x n = -(s 0).x n) ∧ (s' 0).c = ⟨(s 0).c.s, -(s 0).c.cur, -(s 0).c.old⟩ ∧ (s' 0).t = (s 0).t ∧
      (s' 0).ticks = (s 0).ticks) :
    (∀ k, (∀ n < c.sys.N, (s' k).x n = -(s k).x n) ∧ signal (s' (k + 1)).c = 1 - signal (s (k + 1)).c) ∧
    ∀ (co : Coeffs ℝ N M L) (K1 K2 : ℕ) (eta2 : ℝ) (ds limit n : ℕ) (offset : Option (Fin L → ℝ)),
      (∀ f f' : FIR ℝ M L, FIR.new co K1 K2 eta2 false ds limit offset = .ok f →
        FIR.new co K1 K2 eta2 false ds limit (offset.map fun o => -o) = .ok f' → ds ≤ K1 + K2 → limit = 0 ∨ ds * (n + 1) ≤ limit →
        ∃ u, call (f.next fun k => .ok (signal (s (k + 1)).c)) FIRState.init n = .ok u ∧
          call (f'.next fun k => .ok (signal (s' (k + 1)).c)) FIRState.init n = .ok (-u)) ∧
      (∀ f : IIR ℝ N M L, IIR.new co K2 eta2 ds limit = .ok f → 1 ≤ K2 → 1 ≤ ds → limit = 0 ∨ ds * n + 1 ≤ limit →
        ∃ u, call (f.next fun k => .ok (signal (s (k + 1)).c)) IIRState.init n = .ok u ∧
          call (f.next fun k => .ok (signal (s' (k + 1)).c)) IIRState.init n = .ok (-u)) ∧
      ∀ f : Batch ℝ N M L, Batch.new co K1 K2 eta2 1 limit = .ok f → n + n / K1 + 1 ≤ limit →
        ∃ u, call (f.next fun k => .ok (signal (s (k + 1)).c)) f.init n = .ok u ∧
          call (f.next fun k => .ok (signal (s' (k + 1)).c)) f.init n = .ok (-u) := by
  have e1 := C28_deterministic (config c) hin hT _ _ _ _ hr' (C163_simulation c s φ hr hn) (by
    refine ⟨h0.1, ?_, h0.2.2⟩
    rw [h0.2.1]
    unfold st
    congr 1)
  have e2 : ∀ k, signal (s' (k + 1)).c = 1 - signal (s (k + 1)).c := fun k => by
    rw [(e1 (k + 1)).2.1]
    funext m
    exact if_pos ⟨rfl, hd m⟩
  refine ⟨fun k => ⟨(e1 k).1, e2 k⟩, fun co K1 K2 eta2 ds limit n offset => ?_⟩
  simp only [e2]
  exact C163_estimates co (fun k => signal (s (k + 1)).c) K1 K2 eta2 ds limit n offset

/-- one integrator and its control; `u` is the constant input -/
noncomputable abbrev exCfg (u : ℝ) : Cfg 1 :=
  ⟨⟨1, 1, 1, 1, 1, fun _ _ => 0, fun _ _ => 1, fun _ _ => 1, some fun _ _ => -1, some fun _ _ => 1, fun _ _ => 0, fun _ _ => 0, fun _ _ => 0⟩,
    ⟨1 / 2, 0, 0, fun _ => stepResponse 0, fun _ => 0⟩, fun _ _ _ => u, true⟩

theorem ex_run (u x0 : ℝ) : ∃ s φ, s 0 = (⟨0, 0, fun _ => x0, State.init⟩ : St 1) ∧ Run (exCfg u) s φ :=
  C148_run (exCfg u) (by norm_num) (fun _ => ⟨.step 0 1, rfl⟩) (fun _ _ => continuous_const) ⟨by simp, rfl, by simp, le_refl 1⟩ _

theorem ex_obs (u : ℝ) (s : St 1) (y : Vec ℝ) (h : (exCfg u).sys.controlObservation ⟨1, s.x⟩ (some ((exCfg u).u0 s))
    (some (asVec (contribution (exCfg u).dc s.c 0))) = .ok y) : y.len = 1 ∧ y.v 0 = s.x 0 := by
  simp [Sys.controlObservation, npDot, asVec, Cfg.u0, bind, Except.bind, npAdd, dot] at h
  rw [← h]
  exact ⟨rfl, by simp⟩

theorem ex_decided (u : ℝ) (m : Fin 1) : Decided (exCfg u) m := by simp [Decided, allclose, stepResponse]

/-- what one period does to the state and the control signal of the example -/
theorem ex_period (u : ℝ) {s s' : St 1} {φ : ℝ → ℕ → ℝ} (h : Period (exCfg u) s φ s') :
    s'.c.s 0 = (if 0 ≤ s.x 0 then 1 else 0) ∧ s'.x 0 = s.x 0 + (u - (2 * (if 0 ≤ s.x 0 then 1 else 0) - 1)) / 2 := by
  obtain ⟨y, h1, -, h3⟩ := (decide_ok (exCfg u) s _).1 h.dec
  have hy := (ex_obs u s y h1).2
  have hs : s'.c.s 0 = (if 0 ≤ s.x 0 then 1 else 0) := by
    rw [h3]
    show (if _ then (if (0 : ℝ) ≤ y.v 0 then (1 : ℝ) else 0) else _) = _
    rw [if_pos (show allclose 0 ((exCfg u).dc.ir 0).t0 (exCfg u).dc.tt2 from ex_decided u 0), hy]
  have hc : s'.c.cur 0 = 2 * (if 0 ≤ s.x 0 then 1 else 0) - 1 := by
    rw [h3]
    show (if _ then 2 * (if (0 : ℝ) ≤ y.v 0 then (1 : ℝ) else 0) - 1 else _) = _
    rw [if_pos (show allclose 0 ((exCfg u).dc.ir 0).t0 (exCfg u).dc.tt2 from ex_decided u 0), hy]
  refine ⟨hs, ?_⟩
  rw [← hc, h.stop 0 one_pos]
  have := linear_unique 1 (fun _ _ => 0) (1 / 2) (fun _ _ => u - s'.c.cur 0) φ (fun τ _ => s.x 0 + τ * (u - s'.c.cur 0))
    (fun n hn => by obtain rfl : n = 0 := by omega
                    rw [h.start 0 one_pos]; simp)
    h.cont (fun n _ => by fun_prop)
    (fun τ hτ n hn => by
      obtain rfl : n = 0 := by omega
      obtain ⟨d, h4, h5⟩ := h.ode τ hτ
      obtain ⟨G, hG, -, h6⟩ := rhs_input (exCfg u) rfl _ _ _ _ _ h4
      cases hG
      refine (h5 0 one_pos).congr_deriv ?_
      rw [h6]
      have hτ0 : ¬ τ < 0 := not_lt.2 hτ.1
      simp [dot, asVec, contribution, stepResponse, hτ0, hτ.1]
      ring)
    (fun τ hτ n hn => by
      refine HasDerivAt.hasDerivWithinAt ?_
      refine (((hasDerivAt_id' τ).mul_const (u - s'.c.cur 0)).const_add (s.x 0)).congr_deriv ?_
      simp [dot])
    (1 / 2) ⟨by norm_num, le_refl _⟩ 0 one_pos
  rw [show (exCfg u).dc.T = 1 / 2 from rfl, this]
  ring

/-- the states of the example with input 1/4 and start 1/16 are never zero -/
theorem ex_states {s : ℕ → St 1} {φ : ℕ → ℝ → ℕ → ℝ} (hr : Run (exCfg (1 / 4)) s φ) (h0 : (s 0).x 0 = 1 / 16) (k : ℕ) :
    ∃ z : ℤ, (s k).x 0 = 1 / 16 + z / 8 := by
  induction k with
  | zero => exact ⟨0, by rw [h0]; simp⟩
  | succ k ih =>
    obtain ⟨z, hz⟩ := ih
    rw [(ex_period _ (hr k)).2]
    by_cases h : 0 ≤ (s k).x 0
    · rw [if_pos h, hz]
      exact ⟨z - 3, by push_cast; ring⟩
    · rw [if_neg h, hz]
      exact ⟨z + 5, by push_cast; ring⟩

theorem ex_noTie {s : ℕ → St 1} {φ : ℕ → ℝ → ℕ → ℝ} (hr : Run (exCfg (1 / 4)) s φ) (h0 : (s 0).x 0 = 1 / 16) (k : ℕ) :
    NoTie (exCfg (1 / 4)) (s k) := by
  intro y hy m _
  obtain rfl : m = 0 := Subsingleton.elim _ _
  show y.v 0 ≠ 0
  rw [(ex_obs _ _ y hy).2]
  obtain ⟨z, hz⟩ := ex_states hr h0 k
  rw [hz]
  intro h
  have h1 : (1 + 2 * z : ℝ) = 0 := by linarith
  have h2 : 1 + 2 * z = 0 := by exact_mod_cast h1
  omega

/-- C163_simulation, C163_converter: an integrator with input 1/4 and start 1/16 meets the hypotheses, and its mirror image from -1/16 can
be simulated as well -/
example : ∃ s φ s' φ', Run (exCfg (1 / 4)) s φ ∧ (∀ k, NoTie (exCfg (1 / 4)) (s k)) ∧ Run (config (exCfg (1 / 4))) s' φ' ∧
    (s 0).x 0 = 1 / 16 ∧ (s' 0).x 0 = -(s 0).x 0 ∧ (s' 0).c = ⟨(s 0).c.s, -(s 0).c.cur, -(s 0).c.old⟩ ∧
    (s' 0).t = (s 0).t ∧ (s' 0).ticks = (s 0).ticks ∧ (s 1).c.s 0 = 1 ∧ (s' 1).c.s 0 = 0 := by
  obtain ⟨s, φ, h0, hr⟩ := ex_run (1 / 4) (1 / 16)
  have hx : (s 0).x 0 = 1 / 16 := by rw [h0]
  obtain ⟨s', φ', h0', hr'⟩ := C148_run (config (exCfg (1 / 4))) (by norm_num) (fun _ => ⟨.step 0 1, rfl⟩)
    (fun _ _ => (continuous_const : Continuous fun _ : ℝ => -(1 / 4 : ℝ))) ⟨by simp, rfl, by simp, le_refl 1⟩ (⟨0, 0, fun _ => -(1 / 16), State.init⟩ : St 1)
  have hh : (s' 0).c = ⟨(s 0).c.s, -(s 0).c.cur, -(s 0).c.old⟩ := by
    rw [h0', h0]
    simp only [State.init]
    congr 1 <;> funext m <;> simp
  have hconv := (C163_converter (N := 1) (L := 1) (exCfg (1 / 4)) rfl (by norm_num) (ex_decided _) hr (ex_noTie hr hx) hr'
    ⟨fun n _ => by rw [h0', h0], hh, by rw [h0', h0], by rw [h0', h0]⟩).1 0
  have h1 : (s 1).c.s 0 = 1 := by
    rw [(ex_period _ (hr 0)).1, hx, if_pos (by norm_num)]
  refine ⟨s, φ, s', φ', hr, ex_noTie hr hx, hr', hx, by rw [h0', h0], hh, by rw [h0', h0], by rw [h0', h0], h1, ?_⟩
  have h2 := congrFun hconv.2 0
  simp only [signal, Pi.sub_apply, Pi.one_apply] at h2
  rw [h2, h1, sub_self]

/-- C163_estimates: filters that meet the hypotheses -/
example : (∃ f, FIR.new (⟨!![1 / 2], !![1 / 3], !![1], !![2], !![1]⟩ : Coeffs ℚ 1 1 1) (2 : ℕ) (3 : ℕ) 1 false 1 0 (some fun _ => 1) = .ok f) ∧
    (∃ f, IIR.new (⟨!![1 / 2], !![1 / 3], !![1], !![2], !![1]⟩ : Coeffs ℚ 1 1 1) (3 : ℕ) 1 1 0 = .ok f) ∧
    ∃ f, Batch.new (⟨!![1 / 2], !![1 / 3], !![1], !![2], !![1]⟩ : Coeffs ℚ 1 1 1) (2 : ℕ) (3 : ℕ) 1 1 100 = .ok f :=
  ⟨⟨_, rfl⟩, ⟨_, rfl⟩, ⟨_, rfl⟩⟩

/-- **C163** Ties break the symmetry: the integrator at rest without input is its own mirror image, so its control signals would have to be
their own complements; they are one in the first period. -/
theorem C163_tie_false : ∃ s φ, Run (exCfg 0) s φ ∧ (∀ k, config (exCfg 0) = exCfg 0 ∧ (s 0).x k = -(s 0).x k) ∧
    (s 0).c = ⟨(s 0).c.s, -(s 0).c.cur, -(s 0).c.old⟩ ∧ ¬ NoTie (exCfg 0) (s 0) ∧ signal (s 1).c ≠ 1 - signal (s 1).c ∧
    (s 1).x 0 ≠ -(s 1).x 0 := by
  obtain ⟨s, φ, h0, hr⟩ := ex_run 0 0
  have hx : (s 0).x 0 = 0 := by rw [h0]
  have hp := ex_period _ (hr 0)
  rw [hx, if_pos (le_refl _)] at hp
  refine ⟨s, φ, hr, fun k => ⟨?_, ?_⟩, ?_, ?_, ?_, ?_⟩
  · simp [config]
  · rw [h0]; simp
  · rw [h0]
    simp only [State.init]
    congr 1 <;> funext m <;> simp
  · intro hn
    obtain ⟨y, h1, -, -⟩ := (decide_ok (exCfg 0) (s 0) _).1 (hr 0).dec
    exact hn y h1 0 (ex_decided 0 0) (by rw [Fin.val_zero, (ex_obs 0 _ y h1).2, hx])
  · intro h
    have := congrFun h 0
    simp only [signal, Pi.sub_apply, Pi.one_apply, hp.1] at this
    norm_num at this
  · rw [hp.2]; norm_num

end Cbadc.Mirror
