import Verif.Props.Estimator
import Verif.Props.RunExists
import Verif.Props.Simulator

/-! # Converters are causal and do not know what time it is (C153) -/

namespace Cbadc.Simulate

open Cbadc.Analog Cbadc.Control Cbadc.Estimator Cbadc.Streams Set Finset

/-- the observation depends on the input only through `B_tilde` -/
theorem observation_congr (g : Sys ℝ) {x x' u u' : ℕ → ℝ} (s : Vec ℝ) (hx : ∀ n < g.N, x n = x' n)
    (hu : (∀ i, ∀ l < g.L, g.Bt i l = 0) ∨ ∀ l < g.L, u l = u' l) :
    g.controlObservation ⟨g.N, x⟩ (some ⟨g.L, u⟩) (some s) = g.controlObservation ⟨g.N, x'⟩ (some ⟨g.L, u'⟩) (some s) := by
  have e1 : ∀ GT : ℕ → ℕ → ℝ, npDot g.Mt g.N GT ⟨g.N, x⟩ = npDot g.Mt g.N GT ⟨g.N, x'⟩ := by
    intro GT
    unfold npDot dot
    dsimp only
    rw [if_neg (by simp), if_neg (by simp)]
    congr 2
    funext r
    exact sum_congr rfl fun c hcc => by rw [hx c (mem_range.mp hcc)]
  have e2 : npDot g.Mt g.L g.Bt ⟨g.L, u⟩ = npDot g.Mt g.L g.Bt ⟨g.L, u'⟩ := by
    unfold npDot dot
    dsimp only
    rw [if_neg (by simp), if_neg (by simp)]
    congr 2
    funext r
    refine sum_congr rfl fun l hl => ?_
    rcases hu with h | h
    · rw [h r l (mem_range.mp hl), zero_mul, zero_mul]
    · rw [h l (mem_range.mp hl)]
  unfold Sys.controlObservation
  cases g.GammaT with
  | none => rfl
  | some GT =>
    dsimp only
    rw [e1 GT, e2]

/-- one step of two simulations whose inputs agree during the period -/
theorem step_congr {M : ℕ} {c c' : Cfg M} (hs : c'.sys = c.sys) (hd : c'.dc = c.dc) (hin : c.hasInput = true) (hin' : c'.hasInput = true)
    (hT : 0 < c.dc.T) {s₁ s₂ s₁' s₂' : St M} {φ φ' : ℝ → ℕ → ℝ} (h : Period c s₁ φ s₂) (h' : Period c' s₁' φ' s₂')
    (hx : ∀ n < c.sys.N, s₁'.x n = s₁.x n) (hc : s₁'.c = s₁.c) (ht : s₁'.t = s₁.t) (hk : s₁'.ticks = s₁.ticks)
    (hu : (∀ i, ∀ l < c.sys.L, c.sys.Bt i l = 0) ∨ ∀ l < c.sys.L, c'.input s₁.ticks s₁.t l = c.input s₁.ticks s₁.t l) :
    s₂'.c = s₂.c ∧ s₂'.t = s₂.t ∧ s₂'.ticks = s₂.ticks ∧
    ((∀ τ ∈ Ico 0 c.dc.T, ∀ l < c.sys.L, c'.input (s₁.ticks + 1) (τ + s₁.t) l = c.input (s₁.ticks + 1) (τ + s₁.t) l) →
      ∀ n < c.sys.N, s₂'.x n = s₂.x n) := by
  obtain ⟨g', d', i', b'⟩ := c'
  obtain rfl : g' = c.sys := hs
  obtain rfl : d' = c.dc := hd
  obtain ⟨y, h1, h2, h3⟩ := (decide_ok _ _ _).mp h.dec
  obtain ⟨y', h1', h2', h3'⟩ := (decide_ok _ _ _).mp h'.dec
  obtain ⟨d, hd, -⟩ := h.ode 0 ⟨le_refl _, hT⟩
  obtain ⟨G, hG, hM, -⟩ := rhs_input c hin _ _ _ _ _ hd
  have hobs : y' = y := by
    rw [hc] at h1'
    have := observation_congr c.sys (asVec (contribution c.dc s₁.c 0)) (x := s₁'.x) (x' := s₁.x)
      (u := fun l => if b' then i' s₁'.ticks (0 + s₁'.t) l else 0) (u' := fun l => if c.hasInput then c.input s₁.ticks (0 + s₁.t) l else 0)
      hx (hu.imp_right fun h l hl => by
        rw [if_pos (show b' = true from hin'), if_pos hin, hk, ht, zero_add]
        exact h l hl)
    exact Except.ok.inj (h1'.symm.trans (this.trans h1))
  have hcc : s₂'.c = s₂.c := by
    rw [h3, h3', hobs, hc]
  refine ⟨hcc, by rw [h.time, h'.time, ht], ?_, fun hv n hn => ?_⟩
  · rw [h.ticks, h'.ticks, hk, if_pos (show b' = true from hin'), if_pos hin]
  · have s1 := h.sol hin G hG
    have s2 := h'.sol hin' G hG
    have s2' : Sol c.sys.N c.sys.A c.dc.T (fun τ n => dot c.sys.L c.sys.B (c.input (s₁.ticks + 1) (τ + s₁.t)) n +
        dot c.sys.M G (asVec (contribution c.dc s₂.c τ)).v n) φ' := by
      refine s2.congr fun τ hτ n _ => ?_
      rw [hcc, ht, hk]
      congr 1
      exact sum_congr rfl fun l hl => by rw [hv τ hτ l (mem_range.mp hl)]
    have := s2'.unique s1 (fun n hn => by rw [h.start n hn, h'.start n hn, hx n hn]) c.dc.T ⟨hT.le, le_refl _⟩ n hn
    rw [h.stop n hn, h'.stop n hn, this]

section
variable {M : ℕ} {c c' : Cfg M} {s s' : ℕ → St M} {φ φ' : ℕ → ℝ → ℕ → ℝ}

theorem clock_time (hr : Run c s φ) (k : ℕ) : (s k).t = (s 0).t + k * c.dc.T := by
  induction k with
  | zero => simp
  | succ k ih => rw [(hr k).time, ih]; push_cast; ring

theorem causal_states (hs : c'.sys = c.sys) (hd : c'.dc = c.dc) (hin : c.hasInput = true) (hin' : c'.hasInput = true) (hT : 0 < c.dc.T)
    (hr : Run c s φ) (hr' : Run c' s' φ')
    (h0 : (∀ n < c.sys.N, (s' 0).x n = (s 0).x n) ∧ (s' 0).c = (s 0).c ∧ (s' 0).t = (s 0).t ∧ (s' 0).ticks = (s 0).ticks) (K : ℕ)
    (hu : ∀ j t, t < (s 0).t + K * c.dc.T → ∀ l < c.sys.L, c'.input j t l = c.input j t l) (k : ℕ) (hk : k ≤ K) :
    (∀ n < c.sys.N, (s' k).x n = (s k).x n) ∧ (s' k).c = (s k).c ∧ (s' k).t = (s k).t ∧ (s' k).ticks = (s k).ticks := by
  induction k with
  | zero => exact h0
  | succ k ih =>
    obtain ⟨hx, hc, ht, hn⟩ := ih (by omega)
    have hlt : (k : ℝ) + 1 ≤ K := by exact_mod_cast hk
    have e := clock_time hr k
    have hle : (s k).t + c.dc.T ≤ (s 0).t + K * c.dc.T := by
      rw [e]
      nlinarith
    obtain ⟨a1, a2, a3, a4⟩ := step_congr hs hd hin hin' hT (hr k) (hr' k) hx hc ht hn
      (.inr fun l hl => hu _ _ (by linarith) l hl)
    exact ⟨a4 fun τ hτ l hl => hu _ _ (by have := hτ.2; linarith) l hl, a1, a2, a3⟩

/-- **C153** Causality: two simulations of the same converter, started alike, whose inputs agree up to the `K`-th clock edge,
have the same states and make the same decisions up to and including the one at that edge, whatever their inputs do later. -/
theorem C153_causal (hs : c'.sys = c.sys) (hd : c'.dc = c.dc) (hin : c.hasInput = true) (hin' : c'.hasInput = true) (hT : 0 < c.dc.T)
    (hr : Run c s φ) (hr' : Run c' s' φ')
    (h0 : (∀ n < c.sys.N, (s' 0).x n = (s 0).x n) ∧ (s' 0).c = (s 0).c ∧ (s' 0).t = (s 0).t ∧ (s' 0).ticks = (s 0).ticks) (K : ℕ)
    (hu : ∀ j t, t ≤ (s 0).t + K * c.dc.T → ∀ l < c.sys.L, c'.input j t l = c.input j t l) :
    (∀ k ≤ K, ∀ n < c.sys.N, (s' k).x n = (s k).x n) ∧ ∀ k ≤ K + 1, (s' k).c = (s k).c := by
  have h := causal_states hs hd hin hin' hT hr hr' h0 K fun j t ht => hu j t ht.le
  refine ⟨fun k hk => (h k hk).1, fun k hk => ?_⟩
  rcases Nat.lt_or_ge k (K + 1) with hlt | hge
  · exact (h k (by omega)).2.1
  · obtain rfl : k = K + 1 := by omega
    obtain ⟨hx, hc, ht, hn⟩ := h K le_rfl
    exact (step_congr hs hd hin hin' hT (hr K) (hr' K) hx hc ht hn (.inr fun l hl => hu _ _ (clock_time hr K).le l hl)).1

/-- **C153** Strict causality: if the inputs do not feed through to the comparators (`B_tilde = 0`), the decision at a clock edge does
not even depend on the input at that edge. -/
theorem C153_strict (hs : c'.sys = c.sys) (hd : c'.dc = c.dc) (hin : c.hasInput = true) (hin' : c'.hasInput = true) (hT : 0 < c.dc.T)
    (hB : ∀ i, ∀ l < c.sys.L, c.sys.Bt i l = 0) (hr : Run c s φ) (hr' : Run c' s' φ')
    (h0 : (∀ n < c.sys.N, (s' 0).x n = (s 0).x n) ∧ (s' 0).c = (s 0).c ∧ (s' 0).t = (s 0).t ∧ (s' 0).ticks = (s 0).ticks) (K : ℕ)
    (hu : ∀ j t, t < (s 0).t + K * c.dc.T → ∀ l < c.sys.L, c'.input j t l = c.input j t l) :
    (∀ k ≤ K, ∀ n < c.sys.N, (s' k).x n = (s k).x n) ∧ ∀ k ≤ K + 1, (s' k).c = (s k).c := by
  have h := causal_states hs hd hin hin' hT hr hr' h0 K hu
  refine ⟨fun k hk => (h k hk).1, fun k hk => ?_⟩
  rcases Nat.lt_or_ge k (K + 1) with hlt | hge
  · exact (h k (by omega)).2.1
  · obtain rfl : k = K + 1 := by omega
    obtain ⟨hx, hc, ht, hn⟩ := h K le_rfl
    exact (step_congr hs hd hin hin' hT (hr K) (hr' K) hx hc ht hn (.inl hB)).1

/-- **C153** Time invariance: a simulation that starts `d` later (after `j` more ticks of its inputs), with inputs that are later by as
much, is the same simulation. -/
theorem C153_shift (c : Cfg M) (j : ℕ) (d : ℝ) (s : ℕ → St M) (φ : ℕ → ℝ → ℕ → ℝ) :
    Run ⟨c.sys, c.dc, fun i t => c.input (i + j) (t + d), c.hasInput⟩ s φ ↔
      Run c (fun k => ⟨(s k).ticks + j, (s k).t + d, (s k).x, (s k).c⟩) φ := by
  have e1 : ∀ st : St M, Cfg.decide ⟨c.sys, c.dc, fun i t => c.input (i + j) (t + d), c.hasInput⟩ st =
      c.decide ⟨st.ticks + j, st.t + d, st.x, st.c⟩ := by
    intro st
    have : Cfg.u0 ⟨c.sys, c.dc, fun i t => c.input (i + j) (t + d), c.hasInput⟩ st = c.u0 ⟨st.ticks + j, st.t + d, st.x, st.c⟩ := by
      unfold Cfg.u0
      simp only [add_assoc]
    unfold Cfg.decide
    rw [this]
  have e2 : ∀ (st : St M) e τ y, Cfg.rhs ⟨c.sys, c.dc, fun i t => c.input (i + j) (t + d), c.hasInput⟩ st e τ y =
      c.rhs ⟨st.ticks + j, st.t + d, st.x, st.c⟩ e τ y := by
    intro st e τ y
    unfold Cfg.rhs
    dsimp only
    by_cases h : c.hasInput = true
    · rw [if_pos h, if_pos h, show st.ticks + j + 1 = st.ticks + 1 + j by omega]
      simp only [add_assoc]
    · rw [if_neg h, if_neg h]
  refine forall_congr' fun k => ⟨fun h => ?_, fun h => ?_⟩
  · refine ⟨(e1 (s k)).symm.trans h.dec, h.start, h.cont, fun τ hτ => ?_, h.stop, ?_, ?_⟩
    · obtain ⟨D, h1, h2⟩ := h.ode τ hτ
      exact ⟨D, (e2 (s k) _ τ _).symm.trans h1, h2⟩
    · show (s (k + 1)).ticks + j = if c.hasInput = true then (s k).ticks + j + 1 else (s k).ticks + j
      rw [h.ticks]
      dsimp only
      by_cases hb : c.hasInput = true
      · rw [if_pos hb, if_pos hb]; omega
      · rw [if_neg hb, if_neg hb]
    · show (s (k + 1)).t + d = (s k).t + d + c.dc.T
      rw [h.time]; ring
  · refine ⟨(e1 (s k)).trans h.dec, h.start, h.cont, fun τ hτ => ?_, h.stop, ?_, ?_⟩
    · obtain ⟨D, h1, h2⟩ := h.ode τ hτ
      exact ⟨D, (e2 (s k) _ τ _).trans h1, h2⟩
    · have := h.ticks
      dsimp only at this ⊢
      by_cases hb : c.hasInput = true
      · rw [if_pos hb] at this ⊢; omega
      · rw [if_neg hb] at this ⊢; omega
    · have := h.time
      dsimp only at this ⊢
      linarith

/-- **C153** The whole converter: the `n`-th estimate depends on the inputs up to the last clock edge whose decision it has read only:
`ds * (n + 1)` decisions for an FIR filter, `ds * n + 1` for an IIR filter, and the current batch with its look-ahead for a batch
estimator.  It is returned, whatever the inputs do later. -/
theorem C153_estimates (hs : c'.sys = c.sys) (hd : c'.dc = c.dc) (hin : c.hasInput = true) (hin' : c'.hasInput = true) (hT : 0 < c.dc.T)
    (hr : Run c s φ) (hr' : Run c' s' φ')
    (h0 : (∀ n < c.sys.N, (s' 0).x n = (s 0).x n) ∧ (s' 0).c = (s 0).c ∧ (s' 0).t = (s 0).t ∧ (s' 0).ticks = (s 0).ticks)
    {L : ℕ} (e : Coeffs ℝ c.sys.N M L) (K1 K2 ds n : ℕ) (eta2 : ℝ) :
    (∀ offset f, FIR.new e K1 K2 eta2 false ds 0 offset = .ok f → 1 ≤ ds → ds ≤ K1 + K2 →
      (∀ j t, t ≤ (s 0).t + (ds * (n + 1) - 1 : ℕ) * c.dc.T → ∀ l < c.sys.L, c'.input j t l = c.input j t l) →
      ∃ v, call (f.next fun i => .ok (signal (s (i + 1)).c)) FIRState.init n = .ok v ∧
        call (f.next fun i => .ok (signal (s' (i + 1)).c)) FIRState.init n = .ok v) ∧
    (∀ f, IIR.new e K2 eta2 ds 0 = .ok f → 1 ≤ ds → 1 ≤ K2 →
      (∀ j t, t ≤ (s 0).t + (ds * n : ℕ) * c.dc.T → ∀ l < c.sys.L, c'.input j t l = c.input j t l) →
      ∃ v, call (f.next fun i => .ok (signal (s (i + 1)).c)) IIRState.init n = .ok v ∧
        call (f.next fun i => .ok (signal (s' (i + 1)).c)) IIRState.init n = .ok v) ∧
    ∀ limit f, Batch.new e K1 K2 eta2 1 limit = .ok f → n + n / K1 + 1 ≤ limit →
      (∀ j t, t ≤ (s 0).t + (n / K1 * K1 + (K1 + K2) - 1 : ℕ) * c.dc.T → ∀ l < c.sys.L, c'.input j t l = c.input j t l) →
      ∃ v, call (f.next fun i => .ok (signal (s (i + 1)).c)) f.init n = .ok v ∧
        call (f.next fun i => .ok (signal (s' (i + 1)).c)) f.init n = .ok v := by
  refine ⟨fun offset f hf h1 h2 hu => ?_, fun f hf h1 h2 hu => ?_, fun limit f hf h1 hu => ?_⟩
  · have hc := (C153_causal hs hd hin hin' hT hr hr' h0 _ hu).2
    refine ⟨_, C31_fir_estimate e K1 K2 eta2 false ds 0 offset f hf _ (fun i => signal (s (i + 1)).c) n h2 (.inl rfl) fun j _ => rfl,
      C31_fir_estimate e K1 K2 eta2 false ds 0 offset f hf _ (fun i => signal (s (i + 1)).c) n h2 (.inl rfl) fun j hj => ?_⟩
    rw [hc (j + 1) (by omega)]
  · have hc := (C153_causal hs hd hin hin' hT hr hr' h0 _ hu).2
    refine ⟨_, C33_iir_estimate e K2 eta2 ds 0 f hf h2 h1 _ (fun i => signal (s (i + 1)).c) n (ds * n + 1) (by omega) (.inl rfl) fun j _ => rfl,
      C33_iir_estimate e K2 eta2 ds 0 f hf h2 h1 _ (fun i => signal (s (i + 1)).c) n (ds * n + 1) (by omega) (.inl rfl) fun j hj => ?_⟩
    rw [hc (j + 1) (by omega)]
  · have hc := (C153_causal hs hd hin hin' hT hr hr' h0 _ hu).2
    refine ⟨_, C32_batch_estimate e K1 K2 eta2 1 limit f hf _ (fun i => signal (s (i + 1)).c) n h1 fun j _ => rfl,
      C32_batch_estimate e K1 K2 eta2 1 limit f hf _ (fun i => signal (s (i + 1)).c) n h1 fun j hj => ?_⟩
    rw [hc (j + 1) (by omega)]

end

/-- C153_causal, C153_strict, C153_shift, C153_estimates: a second-order chain of integrators, simulated with a ramp and with a ramp
that ends after two periods, and an estimator for it -/
example (g : Sys ℝ) (hg : chainOfIntegrators [1, 1] [0, 0] (.mat 2 1 fun _ _ => -1) = .ok g) :
    ∃ (c c' : Cfg 2), c.sys = g ∧ c'.sys = c.sys ∧ c'.dc = c.dc ∧ c.hasInput = true ∧ c'.hasInput = true ∧ 0 < c.dc.T ∧
    (∀ i, ∀ l < c.sys.L, c.sys.Bt i l = 0) ∧ c.input 0 2 0 ≠ c'.input 0 2 0 ∧
    ∃ s φ s' φ', Run c s φ ∧ Run c' s' φ' ∧ s 0 = s' 0 ∧ (s 0).x 1 = 1 / 4 ∧
      (∀ j t, t ≤ (s 0).t + (2 : ℕ) * c.dc.T → ∀ l < c.sys.L, c'.input j t l = c.input j t l) := by
  have hs : ∀ i : ℕ → ℝ → ℕ → ℝ, Fits (⟨g, ⟨1 / 2, 0, 0, fun _ => stepResponse 0, fun _ => 0⟩, i, true⟩ : Cfg 2) := fun i =>
    EndToEnd.C148_structures [1, 1] [1] [0, 0] (fun _ _ => -1) (by simp) rfl rfl _ (.inl hg)
  obtain ⟨s, φ, h0, hr⟩ := C148_run (⟨g, ⟨1 / 2, 0, 0, fun _ => stepResponse 0, fun _ => 0⟩, fun _ t _ => t, true⟩ : Cfg 2)
    (by norm_num) (fun m => ⟨.step 0 1, rfl⟩) (fun _ _ => continuous_id) (hs _) ⟨0, 0, fun _ => 1 / 4, fun _ => 0, fun _ => 0, fun _ => 0⟩
  obtain ⟨s', φ', h0', hr'⟩ := C148_run (⟨g, ⟨1 / 2, 0, 0, fun _ => stepResponse 0, fun _ => 0⟩, fun _ t _ => min t 1, true⟩ : Cfg 2)
    (by norm_num) (fun m => ⟨.step 0 1, rfl⟩) (fun _ _ => continuous_id.min continuous_const) (hs _)
    ⟨0, 0, fun _ => 1 / 4, fun _ => 0, fun _ => 0, fun _ => 0⟩
  refine ⟨(⟨g, ⟨1 / 2, 0, 0, fun _ => stepResponse 0, fun _ => 0⟩, fun _ t _ => t, true⟩ : Cfg 2),
    (⟨g, ⟨1 / 2, 0, 0, fun _ => stepResponse 0, fun _ => 0⟩, fun _ t _ => min t 1, true⟩ : Cfg 2),
    rfl, rfl, rfl, rfl, rfl, by norm_num, ?_, by norm_num, s, φ, s', φ', hr, hr', h0.trans h0'.symm, by rw [h0], ?_⟩
  · have := (chain_eq [1, 1] [0, 0] (by simp) rfl fun _ _ => -1).symm.trans hg
    rw [← Except.ok.inj this]
    intro i l _
    rfl
  · intro j t ht l _
    rw [h0] at ht
    exact min_eq_left (by norm_num at ht; exact ht)

/-- C153_estimates: a filter that meets the conditions -/
example : ∃ f, FIR.new (⟨1, 1, 1, 1, 1⟩ : Coeffs ℝ 1 1 1) (3 : ℕ) (4 : ℕ) 1 false 2 0 none = .ok f :=
  (C31_fir_accepts _ _ _ _ _ _ _ _).2 ⟨by norm_num, by norm_num, by norm_num, rfl⟩

end Cbadc.Simulate
