import Verif.Lemmas.ClosedLoop
import Verif.Lemmas.LoopControl
import Verif.Lemmas.LoopExample
import Verif.Props.OpAmp
import Mathlib.Algebra.Order.Floor.Ring
import Mathlib.Tactic.NormNum

/-!
# C170: a circuit simulation of the closed loop and the package's own simulation

The netlist of the op-amp frontend with its digital control, against `FullSimulator` with a digital control whose
delay is the delay of the comparators.
-/

namespace Cbadc.ClosedLoop
open Set Cbadc.Analog Cbadc.Control Cbadc.Simulate Cbadc.Circuit Cbadc.Circuit.Spec

/-- The simulator and the circuit are set up alike: the same system, inputs and controls in units of the swing of
the comparators, the delay of the comparators as delay of the control, a clock with an edge at every start of a
period, and controls that stay within the swing. -/
structure Alike (S : Sys ℝ) (p : Timing) (sol : Circuit.Spec.Sol) (cfg : Cfg S.M) (st : ℕ → St S.M) : Prop where
  sys : cfg.sys = S
  some : cfg.hasInput = true
  steps : ∀ m, cfg.dc.ir m = stepResponse 0
  offsets : ∀ m, cfg.dc.offsets m = 0
  transition : 0 ≤ cfg.dc.tt2
  delay : cfg.dc.tDelay = p.adc + p.dff
  causal : 0 ≤ p.adc + p.dff ∧ 0 ≤ p.ramp
  settled : p.adc + p.dff + p.ramp < cfg.dc.T
  swing : p.low < p.high
  input : ∀ k t, (st 0).t ≤ t → ∀ l < S.L,
    (p.high - p.low) * cfg.input k t l = diff sol (fmt "IN" l "_P") (fmt "IN" l "_N") t
  smooth : ∀ l < S.L, ∀ k, ContinuousAt (diff sol (fmt "IN" l "_P") (fmt "IN" l "_N")) (st k).t
  clock : ∀ k, ∃ f, Circuit.Spec.Period p.hi (diff sol "CLK" "VCM") (st k).t f (st (k + 1)).t
  limited : ∀ m < S.M, ∀ t, (st 0).t ≤ t → |diff sol (fmt "OUT" m "_P") (fmt "OUT" m "_N") t| ≤ p.high - p.low
  decided : ∀ m, |(st 0).c.cur m| ≤ 1

/-- Until the first decision arrives, the controls of the circuit are those the simulator starts with. -/
def First (S : Sys ℝ) (p : Timing) (sol : Circuit.Spec.Sol) (cfg : Cfg S.M) (st : ℕ → St S.M) : Prop :=
  ∀ (m : Fin S.M) t, (st 0).t ≤ t → t ≤ (st 0).t + cfg.dc.tDelay →
    diff sol (fmt "OUT" m "_P") (fmt "OUT" m "_N") t = (p.high - p.low) * (st 0).c.cur m

/-- The states are `E` apart at the start, or `E` also accounts for other controls until the first decision
arrives, whose effect per unit of time differs by at most `2 g`. -/
def Starts (S : Sys ℝ) (p : Timing) (sol : Circuit.Spec.Sol) (cfg : Cfg S.M) (st : ℕ → St S.M) (g E : ℝ) : Prop :=
  ∃ E₀ ≥ 0, (∀ n < S.N, |diff sol (fmt "X" n "_P") (fmt "X" n "_N") (st 0).t - (p.high - p.low) * (st 0).x n|
    ≤ (p.high - p.low) * E₀) ∧ (First S p sol cfg st ∧ E = E₀ ∨ E = E₀ + 2 * g * cfg.dc.tDelay)

/-- The observations of the simulator in the first `K` periods are further from zero than the thresholds of the
comparators and the possible deviation of the states account for. -/
def Clear (S : Sys ℝ) (p : Timing) (cfg : Cfg S.M) (st : ℕ → St S.M) (h : ℝ) (dev : ℕ → ℝ) (K : ℕ) : Prop :=
  ∀ k < K, ∀ y, S.controlObservation ⟨S.N, (st k).x⟩ (some (cfg.u0 (st k)))
    (some (asVec (contribution cfg.dc (st k).c 0))) = .ok y → ∀ m < S.M,
    max |p.lo| |p.hi| < (p.high - p.low) * (|y.v m| - h * dev k)

/-- The circuit follows the simulation for `K` periods: the states are within the deviation at the start of every
period and throughout it, and after delay and ramp the controls are those of the simulator until the next ones
come. -/
def Follows (S : Sys ℝ) (p : Timing) (sol : Circuit.Spec.Sol) (cfg : Cfg S.M) (st : ℕ → St S.M) (φ : ℕ → ℝ → ℕ → ℝ)
    (dev : ℕ → ℝ) (K : ℕ) : Prop :=
  (∀ k ≤ K, ∀ n < S.N, |diff sol (fmt "X" n "_P") (fmt "X" n "_N") (st k).t - (p.high - p.low) * (st k).x n|
    ≤ (p.high - p.low) * dev k) ∧
  (∀ k < K, ∀ τ, 0 ≤ τ → τ ≤ cfg.dc.T → ∀ n < S.N,
    |diff sol (fmt "X" n "_P") (fmt "X" n "_N") ((st k).t + τ) - (p.high - p.low) * φ k τ n|
      ≤ (p.high - p.low) * dev (k + 1)) ∧
  ∀ k < K, ∀ m : Fin S.M, ∀ t, (st k).t + (p.adc + p.dff) + p.ramp < t → t ≤ (st (k + 1)).t + (p.adc + p.dff) →
    diff sol (fmt "OUT" m "_P") (fmt "OUT" m "_N") t = (p.high - p.low) * (2 * signal (st (k + 1)).c m - 1)

/-- The nodes between the resistors and the op-amps. -/
def grounds (N : ℕ) : List String := (List.range N).flatMap fun n => [fmt "VGND_" n "_P", fmt "VGND_" n "_N"]

/-- A frontend that solves the state equation and contains the digital control follows the simulation. -/
theorem follows (ids : String → ℕ → String) (S : Sys ℝ) (mid : ℝ) (G GT : ℕ → ℕ → ℝ) (hG : S.Gamma = some G)
    (hGT : S.GammaT = some GT) (hM : S.M = S.Mt) (hAt : ∀ i < S.Mt, ∀ m < S.M, S.At i m = 0) :
    ∃ c ds D, digitalControl ids S 0 mid = .ok (c, ds) ∧ clockedComparator ids = .ok D ∧
      ∀ (law : Law) (sol : Circuit.Spec.Sol) (p : Timing) (net : List (Line ℝ)) (nodes : List String)
        (cfg : Cfg S.M) (st : ℕ → St S.M) (φ : ℕ → ℝ → ℕ → ℝ) (a g h E : ℝ) (K : ℕ),
        Loop law sol p mid net nodes (c.definition ids (controlPins S.N S.L S.M)) ds D →
        ⟨"Xdc", .sub "digital_control", (controlPins S.N S.L S.M).map OaPart.ctl.hubPin⟩ ∈ net →
        StateEquation S.N S.L S.M S.A S.B G
          (fun n => diff sol (fmt "X" n "_P") (fmt "X" n "_N"))
          (fun l => diff sol (fmt "IN" l "_P") (fmt "IN" l "_N"))
          (fun m => diff sol (fmt "OUT" m "_P") (fmt "OUT" m "_N")) →
        Alike S p sol cfg st → Run cfg st φ →
        0 ≤ a → (∀ n < S.N, ∑ j ∈ Finset.range S.N, |S.A n j| ≤ a) →
        0 ≤ g → (∀ n < S.N, ∑ m ∈ Finset.range S.M, |G n m| ≤ g) →
        (∀ m < S.M, ∑ n ∈ Finset.range S.N, |GT m n| ≤ h) →
        Starts S p sol cfg st g E →
        Clear S p cfg st h (deviation a cfg.dc.T g p.ramp E) K →
        Follows S p sol cfg st φ (deviation a cfg.dc.T g p.ramp E) K := by
  obtain ⟨c, ds, D, hc, hD, hdec⟩ := loop_control ids S mid GT hGT hM
  refine ⟨c, ds, D, hc, hD, ?_⟩
  intro law sol p net nodes cfg st φ a g h E K hl hmem hx al hrun ha hA hg hGg hGTh hstart hclear
  have hS := al.sys
  have hcl := hdec law sol p net nodes hl hmem
  have hdel := al.delay
  obtain ⟨E₀, hE₀, hx0, hE⟩ := hstart
  have hgd : 0 ≤ 2 * g * cfg.dc.tDelay := by
    rw [hdel]
    have := al.causal.1
    positivity
  have hE0 : E₀ ≤ E := by
    rcases hE with ⟨-, h⟩ | h <;> linarith
  have hV := sub_pos.mpr al.swing
  have hx1 : ∀ n < S.N, |diff sol (fmt "X" n "_P") (fmt "X" n "_N") (st 0).t - (p.high - p.low) * (st 0).x n|
      ≤ (p.high - p.low) * E := fun n hn => (hx0 n hn).trans (mul_le_mul_of_nonneg_left hE0 hV.le)
  have := follow cfg G GT st φ (fun n => diff sol (fmt "X" n "_P") (fmt "X" n "_N"))
    (fun l => diff sol (fmt "IN" l "_P") (fmt "IN" l "_N")) (fun m => diff sol (fmt "OUT" m "_P") (fmt "OUT" m "_N"))
    (p.high - p.low) p.ramp p.lo p.hi a g h E (by rw [hS]; exact hG) (by rw [hS]; exact hGT) (by rw [hS])
    (by rw [hS]; exact hM.symm) al.some (by rw [hS]; exact hAt) al.steps al.offsets al.transition
    (by rw [hdel]; exact al.causal.1) al.causal.2 (by rw [hdel]; exact al.settled) (sub_pos.mpr al.swing) hrun
    (by rw [hS]; exact hx) (by rw [hS]; exact al.input) (by rw [hS]; exact al.smooth)
    (by
      intro k i hi t ht1 ht2
      rw [hdel] at ht1 ht2
      obtain ⟨f, hper⟩ := al.clock k
      obtain ⟨d1, d2⟩ := hcl _ _ _ hper i (by omega) t (by linarith) (by linarith)
      have z : ∀ τ, ∑ m ∈ Finset.range S.M, S.At i m * diff sol (fmt "OUT" m "_P") (fmt "OUT" m "_N") τ = 0 :=
        fun τ => Finset.sum_eq_zero fun m hm => by rw [hAt i (by omega) m (Finset.mem_range.mp hm), zero_mul]
      simp only [z, add_zero] at d1 d2
      rw [hS]
      exact ⟨d1, fun ha => by rw [d2 ha]; ring⟩)
    al.limited al.decided (by
      rw [hS]
      rcases hE with ⟨h1, -⟩ | h
      · exact Or.inl h1
      · refine Or.inr ⟨by linarith, ?_⟩
        rw [show E - 2 * g * cfg.dc.tDelay = E₀ by linarith]
        exact hx0)
    ha (by rw [hS]; exact hA) hg (by rw [hS]; exact hGg) (by rw [hS]; exact hGTh)
    (hE₀.le.trans hE0) (by rw [hS]; exact hx1) K (by rw [hS]; exact hclear)
  rw [hS, hdel] at this
  exact this

/-- **C170.**  The netlist of the op-amp frontend with its digital control follows the package's own simulation of
the same system, in units of the swing of the comparators, as long as no observation of the simulation is too close
to zero. -/
theorem C170_follows_partial (ids : String → ℕ → String) (S : Sys ℝ) (C : ℝ) (hC : C ≠ 0) (mid : ℝ) (G GT : ℕ → ℕ → ℝ)
    (hG : S.Gamma = some G) (hGT : S.GammaT = some GT) (hM : S.M = S.Mt)
    (hAt : ∀ i < S.Mt, ∀ m < S.M, S.At i m = 0) :
    ∃ s c ds D, opampFrontend ids S C = .ok s ∧ digitalControl ids S 0 mid = .ok (c, ds) ∧
      clockedComparator ids = .ok D ∧
      ∀ (law : Law) (sol : Circuit.Spec.Sol) (p : Timing) (cfg : Cfg S.M) (st : ℕ → St S.M) (φ : ℕ → ℝ → ℕ → ℝ)
        (a g h E : ℝ) (K : ℕ),
        (∀ v i, law "opamp" v i → IdealOpamp v i) →
        Loop law sol p mid (s.netlist (Obj.name ids)) (grounds S.N)
          (c.definition ids (controlPins S.N S.L S.M)) ds D →
        Alike S p sol cfg st → Run cfg st φ →
        0 ≤ a → (∀ n < S.N, ∑ j ∈ Finset.range S.N, |S.A n j| ≤ a) →
        0 ≤ g → (∀ n < S.N, ∑ m ∈ Finset.range S.M, |G n m| ≤ g) →
        (∀ m < S.M, ∑ n ∈ Finset.range S.N, |GT m n| ≤ h) →
        Starts S p sol cfg st g E →
        Clear S p cfg st h (deviation a cfg.dc.T g p.ramp E) K →
        Follows S p sol cfg st φ (deviation a cfg.dc.T g p.ramp E) K := by
  obtain ⟨s, hs, hstate⟩ := (C52_state_equation ids S C hC).2 G hG
  obtain ⟨c, ds, D, hc, hD, hf⟩ := follows ids S mid G GT hG hGT hM hAt
  refine ⟨s, c, ds, D, hs, hc, hD, ?_⟩
  intro law sol p cfg st φ a g h E K hop hl
  refine hf law sol p _ _ cfg st φ a g h E K hl ?_ ?_
  · obtain ⟨s', hs', hnet, -⟩ := opamp_netlist ids S G hG C
    rw [hs] at hs'
    cases hs'
    rw [hnet]
    unfold oaNet
    simp only [List.mem_append, List.mem_singleton]
    tauto
  · refine hstate law sol hop hl.devices fun n hn => ⟨hl.nodes _ ?_, hl.nodes _ ?_⟩
    · exact List.mem_flatMap.mpr ⟨n, List.mem_range.mpr hn, List.mem_cons_self⟩
    · exact List.mem_flatMap.mpr ⟨n, List.mem_range.mpr hn, List.mem_cons_of_mem _ List.mem_cons_self⟩

/-- The same for the Gm-C frontend with ideal transconductors: its digital control draws no current from the
states. -/
theorem C170_gmc_partial (ids : String → ℕ → String) (S : Sys ℝ) (C : ℝ) (hC : C ≠ 0) (mid : ℝ) (G GT : ℕ → ℕ → ℝ)
    (hG : S.Gamma = some G) (hGT : S.GammaT = some GT) (hM : S.M = S.Mt)
    (hAt : ∀ i < S.Mt, ∀ m < S.M, S.At i m = 0) :
    ∃ s ots c ds D, gmcFrontend ids S C none = .ok (s, ots) ∧ digitalControl ids S 0 mid = .ok (c, ds) ∧
      clockedComparator ids = .ok D ∧
      ∀ (law : Law) (sol : Circuit.Spec.Sol) (p : Timing) (cfg : Cfg S.M) (st : ℕ → St S.M) (φ : ℕ → ℝ → ℕ → ℝ)
        (a g h E : ℝ) (K : ℕ),
        (∀ n (h : n < ots.length), ∀ v i, law (fmt "multi_input_ota_" n "") v i → ObeysDef law ots[n] v i) →
        Loop law sol p mid (s.netlist (Obj.name ids))
          ((List.range S.N).flatMap fun n => [fmt "X" n "_P", fmt "X" n "_N"])
          (c.definition ids (controlPins S.N S.L S.M)) ds D →
        Alike S p sol cfg st → Run cfg st φ →
        0 ≤ a → (∀ n < S.N, ∑ j ∈ Finset.range S.N, |S.A n j| ≤ a) →
        0 ≤ g → (∀ n < S.N, ∑ m ∈ Finset.range S.M, |G n m| ≤ g) →
        (∀ m < S.M, ∑ n ∈ Finset.range S.N, |GT m n| ≤ h) →
        Starts S p sol cfg st g E →
        Clear S p cfg st h (deviation a cfg.dc.T g p.ramp E) K →
        Follows S p sol cfg st φ (deviation a cfg.dc.T g p.ramp E) K := by
  obtain ⟨s, ots, hs, -, hstate⟩ := (C53_state_equation ids S C hC).2 G hG
  obtain ⟨c, ds, D, hc, hD, hf⟩ := follows ids S mid G GT hG hGT hM hAt
  refine ⟨s, ots, c, ds, D, hs, hc, hD, ?_⟩
  intro law sol p cfg st φ a g h E K hot hl
  refine hf law sol p _ _ cfg st φ a g h E K hl ?_ ?_
  · obtain ⟨s', hs', hnet, -⟩ := gmcFrontend_ok ids S G hG C none (fun h => absurd rfl h)
    rw [hs] at hs'
    injection hs' with e
    obtain ⟨rfl, -⟩ := Prod.mk.inj e
    rw [hnet]
    exact List.mem_cons_self
  · refine hstate law sol (loop_senses ids S mid GT hGT hM c ds hc law hl.control hl.compare) hot hl.devices
      fun n hn => ⟨hl.nodes _ ?_, hl.nodes _ ?_⟩
    · exact List.mem_flatMap.mpr ⟨n, List.mem_range.mpr hn, List.mem_cons_self⟩
    · exact List.mem_flatMap.mpr ⟨n, List.mem_range.mpr hn, List.mem_cons_of_mem _ List.mem_cons_self⟩

/-! ### The limit of fast and exact comparators -/

theorem deviation_le {a T g r E ρ : ℝ} (hg : 0 ≤ g) (hr : r ≤ ρ) (hE : E ≤ ρ) (k : ℕ) :
    deviation a T g r E k ≤ ρ * deviation a T g 1 1 k := by
  induction k with
  | zero => simpa [deviation] using hE
  | succ k ih =>
    have h : deviation a T g r E k + 2 * g * r ≤ ρ * (deviation a T g 1 1 k + 2 * g * 1) := by nlinarith
    have := mul_le_mul_of_nonneg_right h (Real.exp_pos (a * T)).le
    calc deviation a T g r E (k + 1) = (deviation a T g r E k + 2 * g * r) * Real.exp (a * T) := rfl
      _ ≤ ρ * (deviation a T g 1 1 k + 2 * g * 1) * Real.exp (a * T) := this
      _ = ρ * deviation a T g 1 1 (k + 1) := by rw [deviation]; ring

theorem deviation_mono {a T g : ℝ} (ha : 0 ≤ a) (hT : 0 ≤ T) (hg : 0 ≤ g) {k K : ℕ} (h : k ≤ K) :
    deviation a T g 1 1 k ≤ deviation a T g 1 1 K := by
  induction K with
  | zero =>
    obtain rfl : k = 0 := by omega
    exact le_rfl
  | succ K ih =>
    rcases Nat.lt_or_eq_of_le h with h | rfl
    · refine (ih (by omega)).trans ?_
      have h1 : (1 : ℝ) ≤ Real.exp (a * T) := Real.one_le_exp (by positivity)
      have h2 := deviation_nonneg (a := a) (T := T) hg zero_le_one zero_le_one K
      rw [deviation]
      nlinarith
    · exact le_rfl

/-- Finitely many positive numbers have a positive lower bound. -/
theorem lower_bound (f : ℕ → ℕ → ℝ) (K M : ℕ) (h : ∀ k < K, ∀ m < M, 0 < f k m) :
    ∃ μ > 0, ∀ k < K, ∀ m < M, μ ≤ f k m := by
  rcases (Finset.range K ×ˢ Finset.range M).eq_empty_or_nonempty with he | hne
  · refine ⟨1, one_pos, fun k hk m hm => ?_⟩
    have : (k, m) ∈ Finset.range K ×ˢ Finset.range M :=
      Finset.mem_product.mpr ⟨Finset.mem_range.mpr hk, Finset.mem_range.mpr hm⟩
    rw [he] at this
    exact absurd this (Finset.notMem_empty _)
  · obtain ⟨q, hq, hmin⟩ := Finset.exists_min_image _ (fun q : ℕ × ℕ => f q.1 q.2) hne
    rw [Finset.mem_product, Finset.mem_range, Finset.mem_range] at hq
    refine ⟨f q.1 q.2, h _ hq.1 _ hq.2, fun k hk m hm => hmin (k, m) ?_⟩
    exact Finset.mem_product.mpr ⟨Finset.mem_range.mpr hk, Finset.mem_range.mpr hm⟩

/-- C170, the limit: if no observation in the first `K` periods of a simulation is exactly zero, then for every
`ε > 0` all circuits whose ramps, thresholds and initial deviation are small enough follow the simulation for `K`
periods up to `ε`, with exactly its decisions. -/
theorem C170_limit_partial (ids : String → ℕ → String) (S : Sys ℝ) (C : ℝ) (hC : C ≠ 0) (mid : ℝ) (G GT : ℕ → ℕ → ℝ)
    (hG : S.Gamma = some G) (hGT : S.GammaT = some GT) (hM : S.M = S.Mt)
    (hAt : ∀ i < S.Mt, ∀ m < S.M, S.At i m = 0) :
    ∃ s c ds D, opampFrontend ids S C = .ok s ∧ digitalControl ids S 0 mid = .ok (c, ds) ∧
      clockedComparator ids = .ok D ∧
      ∀ (cfg : Cfg S.M) (st : ℕ → St S.M) (φ : ℕ → ℝ → ℕ → ℝ) (V : ℝ) (K : ℕ), 0 < V → 0 ≤ cfg.dc.T → Run cfg st φ →
        (∀ k < K, ∀ y, S.controlObservation ⟨S.N, (st k).x⟩ (some (cfg.u0 (st k)))
          (some (asVec (contribution cfg.dc (st k).c 0))) = .ok y → ∀ m < S.M, y.v m ≠ 0) →
        ∀ ε > 0, ∃ ρ > 0, ∀ (law : Law) (sol : Circuit.Spec.Sol) (p : Timing),
          (∀ v i, law "opamp" v i → IdealOpamp v i) →
          Loop law sol p mid (s.netlist (Obj.name ids)) (grounds S.N)
            (c.definition ids (controlPins S.N S.L S.M)) ds D →
          Alike S p sol cfg st → First S p sol cfg st → p.high - p.low = V → p.ramp ≤ ρ → |p.lo| ≤ ρ → |p.hi| ≤ ρ →
          (∀ n < S.N, |diff sol (fmt "X" n "_P") (fmt "X" n "_N") (st 0).t - V * (st 0).x n| ≤ V * ρ) →
          Follows S p sol cfg st φ (fun _ => ε) K := by
  obtain ⟨s, c, ds, D, hs, hc, hD, hf⟩ := C170_follows_partial ids S C hC mid G GT hG hGT hM hAt
  refine ⟨s, c, ds, D, hs, hc, hD, ?_⟩
  intro cfg st φ V K hV hT hrun htie ε hε
  obtain ⟨a, ha⟩ : ∃ a, a = ∑ n ∈ Finset.range S.N, ∑ j ∈ Finset.range S.N, |S.A n j| := ⟨_, rfl⟩
  obtain ⟨g, hg⟩ : ∃ g, g = ∑ n ∈ Finset.range S.N, ∑ m ∈ Finset.range S.M, |G n m| := ⟨_, rfl⟩
  obtain ⟨h, hh⟩ : ∃ h, h = ∑ m ∈ Finset.range S.M, ∑ n ∈ Finset.range S.N, |GT m n| := ⟨_, rfl⟩
  have ha0 : 0 ≤ a := ha ▸ Finset.sum_nonneg fun _ _ => Finset.sum_nonneg fun _ _ => abs_nonneg _
  have hg0 : 0 ≤ g := hg ▸ Finset.sum_nonneg fun _ _ => Finset.sum_nonneg fun _ _ => abs_nonneg _
  have hh0 : 0 ≤ h := hh ▸ Finset.sum_nonneg fun _ _ => Finset.sum_nonneg fun _ _ => abs_nonneg _
  have hA : ∀ n < S.N, ∑ j ∈ Finset.range S.N, |S.A n j| ≤ a := fun n hn => ha ▸
    Finset.single_le_sum (f := fun n => ∑ j ∈ Finset.range S.N, |S.A n j|)
      (fun _ _ => Finset.sum_nonneg fun _ _ => abs_nonneg _) (Finset.mem_range.mpr hn)
  have hGg : ∀ n < S.N, ∑ m ∈ Finset.range S.M, |G n m| ≤ g := fun n hn => hg ▸
    Finset.single_le_sum (f := fun n => ∑ m ∈ Finset.range S.M, |G n m|)
      (fun _ _ => Finset.sum_nonneg fun _ _ => abs_nonneg _) (Finset.mem_range.mpr hn)
  have hGTh : ∀ m < S.M, ∑ n ∈ Finset.range S.N, |GT m n| ≤ h := fun m hm => hh ▸
    Finset.single_le_sum (f := fun m => ∑ n ∈ Finset.range S.N, |GT m n|)
      (fun _ _ => Finset.sum_nonneg fun _ _ => abs_nonneg _) (Finset.mem_range.mpr hm)
  obtain ⟨B, hB⟩ : ∃ B, B = deviation a cfg.dc.T g 1 1 K := ⟨_, rfl⟩
  have hB1 : 1 ≤ B := by
    rw [hB]
    exact deviation_mono (k := 0) ha0 hT hg0 (Nat.zero_le K)
  obtain ⟨μ, hμ, hmin⟩ := lower_bound (fun k m => match S.controlObservation ⟨S.N, (st k).x⟩ (some (cfg.u0 (st k)))
      (some (asVec (contribution cfg.dc (st k).c 0))) with | .ok y => |y.v m| | .error _ => 1) K S.M (by
    intro k hk m hm
    cases hy : S.controlObservation ⟨S.N, (st k).x⟩ (some (cfg.u0 (st k)))
      (some (asVec (contribution cfg.dc (st k).c 0))) with
    | error e => exact one_pos
    | ok y => exact abs_pos.mpr (htie k hk y hy m hm))
  have hden : 0 < 2 * (1 + V * h * B) := by positivity
  refine ⟨min (ε / B) (V * μ / (2 * (1 + V * h * B))), lt_min (by positivity) (by positivity), ?_⟩
  intro law sol p hop hl al hfirst hVp hramp hlo hhi hx0
  have r1 : min (ε / B) (V * μ / (2 * (1 + V * h * B))) * B ≤ ε := by
    have h1 : min (ε / B) (V * μ / (2 * (1 + V * h * B))) ≤ ε / B := min_le_left _ _
    have h2 := mul_le_mul_of_nonneg_right h1 (by linarith : (0 : ℝ) ≤ B)
    rwa [div_mul_cancel₀ _ (by linarith : B ≠ 0)] at h2
  have r2 : min (ε / B) (V * μ / (2 * (1 + V * h * B))) * (1 + V * h * B) < V * μ := by
    have h1 : min (ε / B) (V * μ / (2 * (1 + V * h * B))) ≤ V * μ / (2 * (1 + V * h * B)) := min_le_right _ _
    have h2 := mul_le_mul_of_nonneg_right h1 hden.le
    rw [div_mul_cancel₀ _ hden.ne'] at h2
    have : 0 < V * μ := by positivity
    linarith
  have rp : 0 < min (ε / B) (V * μ / (2 * (1 + V * h * B))) := lt_min (by positivity) (by positivity)
  generalize min (ε / B) (V * μ / (2 * (1 + V * h * B))) = ρ at *
  have hdev : ∀ k ≤ K, deviation a cfg.dc.T g p.ramp ρ k ≤ ρ * B := fun k hk =>
    (deviation_le hg0 hramp le_rfl k).trans
      (mul_le_mul_of_nonneg_left (hB ▸ deviation_mono ha0 hT hg0 hk) rp.le)
  have key := hf law sol p cfg st φ a g h ρ K hop hl al hrun ha0 hA hg0 hGg hGTh
    ⟨ρ, rp.le, by rw [hVp]; exact hx0, Or.inl ⟨hfirst, rfl⟩⟩ (by
    intro k hk y hy m hm
    have h1 := hmin k hk m hm
    rw [hy] at h1
    have h2 : max |p.lo| |p.hi| ≤ ρ := max_le hlo hhi
    have h3 := mul_le_mul_of_nonneg_left (hdev k hk.le) hh0
    rw [hVp]
    have h4 := mul_le_mul_of_nonneg_left (show μ - h * (ρ * B) ≤ |y.v m| - h * deviation a cfg.dc.T g p.ramp ρ k by
      linarith) hV.le
    nlinarith)
  refine ⟨fun k hk n hn => (key.1 k hk n hn).trans ?_, fun k hk τ h1 h2 n hn => (key.2.1 k hk τ h1 h2 n hn).trans ?_,
    key.2.2⟩
  · rw [hVp]
    exact mul_le_mul_of_nonneg_left ((hdev k hk).trans r1) hV.le
  · rw [hVp]
    exact mul_le_mul_of_nonneg_left ((hdev (k + 1) hk).trans r1) hV.le

/-! ### Controls in the observation -/

/-- With a delayed control, `FullSimulator` does not observe the controls that are applied at the start of a period
but those of the period before: here the observation consists of the control alone, the controls applied until the
start of a period would make it keep its decision, and the simulator inverts it in every period. -/
theorem C170_observation_false :
    ∃ (cfg : Cfg 1) (st : ℕ → St 1) (φ : ℕ → ℝ → ℕ → ℝ),
      DC.new 1 0 1 none (1 / 4) none = .ok cfg.dc ∧ Run cfg st φ ∧
      ∀ k, ∃ w : Fin 1 → ℝ, (∀ τ, 1 / 4 ≤ τ → τ ≤ 1 → contribution cfg.dc (st (k + 1)).c τ = w) ∧
        ∃ y, cfg.sys.controlObservation ⟨cfg.sys.N, (st (k + 1)).x⟩ (some (cfg.u0 (st (k + 1)))) (some (asVec w))
            = .ok y ∧
          (0 ≤ y.v 0 ↔ signal (st (k + 2)).c 0 = 0) := by
  let sys : Sys ℝ := ⟨1, 1, 1, 1, 1, fun _ _ => 0, fun _ _ => 0, fun _ _ => 1, some fun _ _ => 0, some fun _ _ => 0,
    fun _ _ => 0, fun _ _ => 0, fun _ _ => 1⟩
  let dc : DC ℝ 1 := ⟨1, 0, 1 / 4, fun _ => stepResponse 0, fun _ => 0⟩
  let cfg : Cfg 1 := ⟨sys, dc, fun _ _ _ => 0, true⟩
  let b : ℕ → ℝ := fun k => if k % 2 = 0 then 1 else -1
  let st : ℕ → St 1 := fun k => ⟨k, k, fun _ => 0, ⟨fun _ => (b k + 1) / 2, fun _ => b k, fun _ => - b k⟩⟩
  have hb : ∀ k, b (k + 1) = - b k := by
    intro k
    show (if (k + 1) % 2 = 0 then (1 : ℝ) else -1) = - if k % 2 = 0 then (1 : ℝ) else -1
    rcases Nat.mod_two_eq_zero_or_one k with h | h
    · rw [if_neg (by omega), if_pos h]
    · rw [if_pos (by omega), if_neg (by omega), neg_neg]
  have hb2 : ∀ k, b k = 1 ∨ b k = -1 := by
    intro k
    show (if k % 2 = 0 then (1 : ℝ) else -1) = 1 ∨ (if k % 2 = 0 then (1 : ℝ) else -1) = -1
    split_ifs
    · exact Or.inl rfl
    · exact Or.inr rfl
  have hobs : ∀ k (w : Fin 1 → ℝ), ∃ y, cfg.sys.controlObservation ⟨cfg.sys.N, (st k).x⟩ (some (cfg.u0 (st k)))
      (some (asVec w)) = .ok y ∧ y.len = 1 ∧ y.v 0 = w 0 := by
    intro k w
    obtain ⟨y, h1, h2, h3⟩ := (C27_observation_partial sys _ rfl ⟨1, (st k).x⟩ (cfg.u0 (st k)) (asVec w) rfl rfl rfl).1
    refine ⟨y, h1, h2, ?_⟩
    rw [h3]
    simp [sys, asVec]
  have hc0 : ∀ k, contribution cfg.dc (st k).c 0 0 = - b k := by
    intro k
    rw [contribution_plain cfg.dc (fun _ => rfl) _ _ le_rfl, if_pos (by norm_num [cfg, dc])]
  have hup : ∀ k (y : Fin 1 → ℝ), y 0 = - b k → update cfg.dc (st k).c 0 y = (st (k + 1)).c := by
    intro k y hy
    have h := update_plain cfg.dc (fun _ => rfl) (fun _ => rfl) le_rfl (st k).c y 0
    have hs : (if (0 : ℝ) ≤ y 0 then (1 : ℝ) else 0) = (b (k + 1) + 1) / 2 := by
      rw [hy, hb]
      rcases hb2 k with e | e <;> rw [e] <;> norm_num
    rw [hs] at h
    have e1 : (update cfg.dc (st k).c 0 y).s = (st (k + 1)).c.s := by
      funext m
      rw [Fin.fin_one_eq_zero m, h.1]
    have e2 : (update cfg.dc (st k).c 0 y).cur = (st (k + 1)).c.cur := by
      funext m
      rw [Fin.fin_one_eq_zero m, h.2.2]
      show _ = b (k + 1)
      ring
    have e3 : (update cfg.dc (st k).c 0 y).old = (st (k + 1)).c.old := by
      funext m
      rw [Fin.fin_one_eq_zero m, h.2.1]
      show b k = - b (k + 1)
      rw [hb, neg_neg]
    cases h1 : update cfg.dc (st k).c 0 y
    rw [h1] at e1 e2 e3
    dsimp only at e1 e2 e3
    rw [e1, e2, e3]
  refine ⟨cfg, st, fun _ _ _ => 0, ?_, ?_, ?_⟩
  · unfold DC.new initIR initOffsets
    rw [if_neg (by norm_num)]
  · intro k
    refine Period.of_sol rfl (fun _ _ => 0) rfl rfl ?_ ⟨fun _ _ => continuousOn_const, ?_⟩ ?_ ?_ ?_ ?_
    · rw [decide_ok]
      obtain ⟨y, h1, h2, h3⟩ := hobs k (contribution cfg.dc (st k).c 0)
      refine ⟨y, h1, h2.ge, (hup k _ ?_).symm⟩
      show y.v 0 = _
      rw [h3, hc0]
    · intro τ _ n _
      refine (hasDerivWithinAt_const τ (Ici τ) (0 : ℝ)).congr_deriv ?_
      simp [dot, cfg, sys]
    · intro n _; rfl
    · intro n _; rfl
    · rfl
    · show ((k + 1 : ℕ) : ℝ) = (k : ℝ) + 1
      push_cast
      rfl
  · intro k
    refine ⟨fun _ => b (k + 1), ?_, ?_⟩
    · intro τ h1 _
      funext m
      rw [contribution_plain cfg.dc (fun _ => rfl) _ _ (by linarith), if_neg (by
        show ¬ τ < 1 / 4
        linarith)]
    · obtain ⟨y, h1, -, h3⟩ := hobs (k + 1) fun _ => b (k + 1)
      refine ⟨y, h1, ?_⟩
      rw [h3]
      show 0 ≤ b (k + 1) ↔ (b (k + 1 + 1) + 1) / 2 = 0
      rw [hb (k + 1)]
      rcases hb2 (k + 1) with e | e <;> rw [e] <;> norm_num

/-! ## A case -/

/-- One state driven by the input and the negative control, which observes the state. -/
def loopEx : Sys ℝ :=
  ⟨1, 1, 1, 1, 1, fun _ _ => 0, fun _ _ => 1, fun _ _ => 1, some fun _ _ => -1, some fun _ _ => 1, fun _ _ => 0,
    fun _ _ => 0, fun _ _ => 0⟩

/-- Thresholds at zero, delays of an eighth of a second, ramps of duration `r`, outputs between minus one and one
volt. -/
noncomputable def loopTiming (r : ℝ) : Timing := ⟨0, 0, 1 / 8, 1 / 8, r, -1, 1⟩

/-- A clock with a period of one second. -/
noncomputable def loopClock (t : ℝ) : ℝ := if Int.fract t < 1 / 2 then 1 else -1

/-- The nodes in the comparator: input and output are constant. -/
noncomputable def loopPot : String → ℝ → ℝ := fun s t =>
  if s = "CLK" then loopClock t
  else if s = "CLKD" then (if Int.fract (t - 1 / 8) < 1 / 2 then 1 else 0)
  else if s = "IN" then 2
  else if s = "OUT" then 1
  else if s = "F_OUT_P" then 1
  else if s = "OUT_P" then 1
  else if s = "OUT_N" then -1
  else 0

theorem loopEx_comparator {r : ℝ} (hr : 0 ≤ r) (i : ℕ) (_ : i < loopEx.Mt) :
    ObeysMixed (loopTiming r) clockedDef
      (comparatorAt loopEx (fun _ _ => 1) (fun _ _ => 2) (fun _ _ => 2) (fun _ _ => 2) loopClock i) := by
  refine ⟨loopPot, ?_, ?_⟩
  · simp only [clockedDef, List.forall_mem_cons, List.not_mem_nil, false_imp_iff, implies_true, and_true, MixedLaw]
    refine ⟨?_, ?_, ?_, ?_, ?_⟩
    · intro t
      simp only [loopTiming]
      simp only [loopPot, String.reduceEq, if_true, if_false, loopClock, add_sub_cancel_right]
      by_cases h : Int.fract t < 1 / 2
      · rw [if_pos h, if_pos h]
        norm_num
      · rw [if_neg h, if_neg h]
        norm_num
    · intro t
      simp only [loopTiming]
      simp only [loopPot, String.reduceEq, if_true, if_false]
      norm_num
    · rintro e b hb - ⟨ε', hε', hd⟩ t ht hno
      have hb1 : b = 1 := by
        have := hd e (by linarith) (by linarith)
        simp only [loopPot, String.reduceEq, if_true, if_false] at this
        exact this.symm
      subst hb1
      simp only [loopPot, String.reduceEq, if_true, if_false]
      norm_num
    · intro t
      constructor
      · intro _
        simp only [loopPot, loopTiming, String.reduceEq, if_true, if_false]
      · intro h
        have h1 := h t (by simpa [loopTiming] using hr) le_rfl
        simp only [loopPot, String.reduceEq, if_true, if_false] at h1
        norm_num at h1
    · intro t
      constructor
      · intro h
        have h1 := h t (by simpa [loopTiming] using hr) le_rfl
        simp only [loopPot, String.reduceEq, if_false] at h1
        norm_num at h1
      · intro _
        simp only [loopPot, loopTiming, String.reduceEq, if_true, if_false]
  · intro k hk
    have hk' : k < 5 := hk
    funext t
    interval_cases k <;> simp [clockedDef, comparatorPins, loopPot, comparatorAt, loopEx]

theorem loopClock_period (k : ℕ) :
    Circuit.Spec.Period 0 loopClock (k : ℝ) (k + 1 / 2) ((k + 1 : ℕ) : ℝ) := by
  have frac : ∀ t (z : ℤ), (z : ℝ) ≤ t → t < z + 1 → Int.fract t = t - z := by
    intro t z h1 h2
    rw [Int.fract, Int.floor_eq_iff.mpr ⟨h1, h2⟩]
  refine ⟨by linarith, by push_cast; linarith, ⟨1 / 2, by norm_num, ?_⟩, ?_, ?_⟩
  · intro t h1 h2
    unfold loopClock
    rw [frac t ((k : ℤ) - 1) (by push_cast; linarith) (by push_cast; linarith), if_neg (by push_cast; linarith)]
    norm_num
  · intro t h1 h2
    unfold loopClock
    rw [frac t (k : ℤ) (by push_cast; linarith) (by push_cast; linarith), if_pos (by push_cast; linarith)]
    norm_num
  · intro t h1 h2
    push_cast at h2
    unfold loopClock
    rw [frac t (k : ℤ) (by push_cast; linarith) (by push_cast; linarith), if_neg (by push_cast; linarith)]
    norm_num

/-- The simulation of the same loop: period one, a delay of a quarter, an input of one. -/
noncomputable def loopCfg : Cfg loopEx.M := ⟨loopEx, ⟨1, 0, 1 / 4, fun _ => stepResponse 0, fun _ => 0⟩, fun _ _ _ => 1, true⟩

/-- State and control are constantly one. -/
def loopSt (k : ℕ) : St loopEx.M := ⟨k, k, fun _ => 1, ⟨fun _ => 1, fun _ => 1, fun _ => 1⟩⟩

theorem loop_obs (k : ℕ) (w : Fin 1 → ℝ) :
    ∃ y, loopEx.controlObservation ⟨loopEx.N, (loopSt k).x⟩ (some (loopCfg.u0 (loopSt k))) (some (asVec w)) = .ok y ∧
      y.len = 1 ∧ y.v 0 = 1 := by
  obtain ⟨y, h1, h2, h3⟩ := (C27_observation_partial loopEx _ rfl ⟨1, (loopSt k).x⟩ (loopCfg.u0 (loopSt k)) (asVec w)
    rfl rfl rfl).1
  refine ⟨y, h1, h2, ?_⟩
  rw [h3]
  simp [loopEx, loopSt]

theorem loop_run : Run loopCfg loopSt fun _ _ _ => 1 := by
  intro k
  refine Period.of_sol rfl (fun _ _ => -1) rfl rfl ?_ ⟨fun _ _ => continuousOn_const, ?_⟩ ?_ ?_ ?_ ?_
  · rw [decide_ok]
    obtain ⟨y, h1, h2, h3⟩ := loop_obs k (contribution loopCfg.dc (loopSt k).c 0)
    refine ⟨y, h1, h2.ge, ?_⟩
    have hup : ∀ m : Fin loopEx.M, (update loopCfg.dc (loopSt k).c 0 fun m => y.v m).s m = 1 ∧
        (update loopCfg.dc (loopSt k).c 0 fun m => y.v m).old m = (loopSt k).c.cur m ∧
        (update loopCfg.dc (loopSt k).c 0 fun m => y.v m).cur m = 2 * 1 - 1 := by
      intro m
      have hm : (m : ℕ) = 0 := by
        have : (m : ℕ) < 1 := m.2
        omega
      have := update_plain loopCfg.dc (fun _ => rfl) (fun _ => rfl) le_rfl (loopSt k).c (fun m => y.v m) m
      have e : (if (0 : ℝ) ≤ y.v m then (1 : ℝ) else 0) = 1 := by rw [hm, h3, if_pos zero_le_one]
      rw [e] at this
      exact this
    have e1 : (update loopCfg.dc (loopSt k).c 0 fun m => y.v m).s = (loopSt (k + 1)).c.s := funext fun m => (hup m).1
    have e2 : (update loopCfg.dc (loopSt k).c 0 fun m => y.v m).cur = (loopSt (k + 1)).c.cur := by
      funext m
      refine (hup m).2.2.trans ?_
      show (2 : ℝ) * 1 - 1 = 1
      norm_num
    have e3 : (update loopCfg.dc (loopSt k).c 0 fun m => y.v m).old = (loopSt (k + 1)).c.old := funext fun m => (hup m).2.1
    cases h1 : update loopCfg.dc (loopSt k).c 0 fun m => y.v m
    rw [h1] at e1 e2 e3
    dsimp only at e1 e2 e3
    rw [e1, e2, e3]
  · intro τ hτ n _
    refine (hasDerivWithinAt_const τ (Ici τ) (1 : ℝ)).congr_deriv ?_
    have hw : contribution loopCfg.dc (loopSt (k + 1)).c τ = fun _ => 1 := by
      funext m
      rw [contribution_plain loopCfg.dc (fun _ => rfl) _ _ hτ.1]
      exact ite_self _
    rw [hw]
    simp [dot, loopCfg, loopEx, asVec]
  · intro n _; rfl
  · intro n _; rfl
  · rfl
  · show ((k + 1 : ℕ) : ℝ) = (k : ℝ) + 1
    push_cast
    rfl

/-- A circuit of this loop is set up like its simulation. -/
theorem loop_alike {r : ℝ} (hr : 0 ≤ r) (hr1 : r < 3 / 4) (sol : Circuit.Spec.Sol)
    (hu : ∀ l, diff sol (fmt "IN" l "_P") (fmt "IN" l "_N") = fun _ => 2)
    (hs : ∀ m, diff sol (fmt "OUT" m "_P") (fmt "OUT" m "_N") = fun _ => 2)
    (hclk : diff sol "CLK" "VCM" = loopClock) : Alike loopEx (loopTiming r) sol loopCfg loopSt := by
  refine ⟨rfl, rfl, fun _ => rfl, fun _ => rfl, le_rfl, ?_, ?_, ?_, ?_, ?_, ?_, ?_, ?_, ?_⟩
  · show (1 / 4 : ℝ) = 1 / 8 + 1 / 8
    norm_num
  · exact ⟨by norm_num [loopTiming], hr⟩
  · show (1 / 8 : ℝ) + 1 / 8 + r < 1
    linarith
  · show (-1 : ℝ) < 1
    norm_num
  · intro k t _ l _
    rw [hu]
    show ((1 : ℝ) - -1) * 1 = 2
    norm_num
  · intro l _ k
    rw [hu]
    exact continuousAt_const
  · intro k
    rw [hclk]
    exact ⟨_, loopClock_period k⟩
  · intro m _ t _
    rw [hs]
    norm_num [loopTiming]
  · intro m
    norm_num [loopSt]

theorem loop_first {r : ℝ} (sol : Circuit.Spec.Sol)
    (hs : ∀ m, diff sol (fmt "OUT" m "_P") (fmt "OUT" m "_N") = fun _ => 2) :
    First loopEx (loopTiming r) sol loopCfg loopSt := by
  intro m t _ _
  rw [hs]
  norm_num [loopTiming, loopSt]

theorem loop_state : StateEquation loopEx.N loopEx.L loopEx.M loopEx.A loopEx.B (fun _ _ => -1) (fun _ _ => 2)
    (fun _ _ => 2) fun _ _ => 2 := by
  intro n _ t
  refine (hasDerivAt_const t (2 : ℝ)).congr_deriv ?_
  simp [loopEx]

theorem loop_clear : Clear loopEx (loopTiming (1 / 8)) loopCfg loopSt 1
    (deviation 0 loopCfg.dc.T 1 (loopTiming (1 / 8)).ramp 0) 2 := by
  intro k hk y hy m hm
  obtain rfl : m = 0 := by
    have : m < 1 := hm
    omega
  obtain ⟨y', h1, -, h3⟩ := loop_obs k (contribution loopCfg.dc (loopSt k).c 0)
  obtain rfl : y = y' := Except.ok.inj (hy.symm.trans h1)
  rw [h3]
  interval_cases k <;> norm_num [deviation, loopTiming]

/-- The hypotheses of `C170_follows_partial` are met: the state, the input and the control are constant at two volts, which
is one in units of the swing, and the circuit follows the simulation for two periods. -/
example : ∃ sol : Circuit.Spec.Sol, Alike loopEx (loopTiming (1 / 8)) sol loopCfg loopSt ∧
    Follows loopEx (loopTiming (1 / 8)) sol loopCfg loopSt (fun _ _ _ => 1) (fun k : ℕ => (k : ℝ) / 4) 2 := by
  obtain ⟨f, c, ds, hf, hc, law, sol, hop, hl, hx, hu, hs, hclk, -⟩ := loop_realisable (fun _ _ => "") loopEx 1
    (fun _ _ => -1) (fun _ _ => 1) rfl rfl rfl _ _ _ loop_state loopClock (loopTiming (1 / 8))
    (loopEx_comparator (by norm_num))
  obtain ⟨f', c', ds', D, hf', hc', hD, h⟩ := C170_follows_partial (fun _ _ => "") loopEx 1 one_ne_zero 0 (fun _ _ => -1)
    (fun _ _ => 1) rfl rfl rfl (fun _ _ _ _ => rfl)
  rw [hf] at hf'
  cases hf'
  rw [hc] at hc'
  cases hc'
  obtain rfl : D = clockedDef := Except.ok.inj (hD.symm.trans (clocked_def _))
  have al := loop_alike (r := 1 / 8) (by norm_num) (by norm_num) sol hu hs hclk
  have hdev : deviation 0 loopCfg.dc.T 1 (loopTiming (1 / 8)).ramp 0 = fun k : ℕ => (k : ℝ) / 4 := by
    funext k
    induction k with
    | zero => norm_num [deviation]
    | succ k ih =>
      rw [deviation, ih]
      norm_num [loopTiming]
      ring
  rw [← hdev]
  refine ⟨sol, al, h law sol _ loopCfg loopSt _ 0 1 1 0 2 hop hl al loop_run le_rfl ?_ zero_le_one ?_ ?_
    ⟨0, le_rfl, ?_, Or.inl ⟨loop_first sol hs, rfl⟩⟩ loop_clear⟩
  · intro n _
    simp [loopEx]
  · intro n _
    simp [loopEx]
  · intro n _
    simp [loopEx]
  · intro n _
    rw [hx]
    norm_num [loopTiming, loopSt]

/-- The hypotheses of `C170_gmc_partial` are met in the same way. -/
example : ∃ sol : Circuit.Spec.Sol, Alike loopEx (loopTiming (1 / 8)) sol loopCfg loopSt ∧
    Follows loopEx (loopTiming (1 / 8)) sol loopCfg loopSt (fun _ _ _ => 1)
      (deviation 0 loopCfg.dc.T 1 (loopTiming (1 / 8)).ramp 0) 2 := by
  obtain ⟨f, os, c, ds, hf, hc, law, sol, hop, hl, hx, hu, hs, hclk, -⟩ := loop_realisable_gmc (fun _ _ => "") loopEx 1
    (fun _ _ => -1) (fun _ _ => 1) rfl rfl rfl _ _ _ loop_state loopClock (loopTiming (1 / 8))
    (loopEx_comparator (by norm_num))
  obtain ⟨f', os', c', ds', D, hf', hc', hD, h⟩ := C170_gmc_partial (fun _ _ => "") loopEx 1 one_ne_zero 0 (fun _ _ => -1)
    (fun _ _ => 1) rfl rfl rfl (fun _ _ _ _ => rfl)
  rw [hf] at hf'
  cases hf'
  rw [hc] at hc'
  cases hc'
  obtain rfl : D = clockedDef := Except.ok.inj (hD.symm.trans (clocked_def _))
  have al := loop_alike (r := 1 / 8) (by norm_num) (by norm_num) sol hu hs hclk
  refine ⟨sol, al, h law sol _ loopCfg loopSt _ 0 1 1 0 2 hop hl al loop_run le_rfl ?_ zero_le_one ?_ ?_
    ⟨0, le_rfl, ?_, Or.inl ⟨loop_first sol hs, rfl⟩⟩ loop_clear⟩
  · intro n _
    simp [loopEx]
  · intro n _
    simp [loopEx]
  · intro n _
    simp [loopEx]
  · intro n _
    rw [hx]
    norm_num [loopTiming, loopSt]

/-- The hypotheses of `C170_limit_partial` are met for every number of periods and every accuracy, by circuits with
sufficiently short ramps. -/
example (K : ℕ) (ε : ℝ) (hε : 0 < ε) : ∃ (r : ℝ) (sol : Circuit.Spec.Sol), 0 < r ∧
    Alike loopEx (loopTiming r) sol loopCfg loopSt ∧
    Follows loopEx (loopTiming r) sol loopCfg loopSt (fun _ _ _ => 1) (fun _ => ε) K := by
  obtain ⟨f', c', ds', D, hf', hc', hD, h⟩ := C170_limit_partial (fun _ _ => "") loopEx 1 one_ne_zero 0 (fun _ _ => -1)
    (fun _ _ => 1) rfl rfl rfl (fun _ _ _ _ => rfl)
  obtain ⟨ρ, hρ, hlim⟩ := h loopCfg loopSt _ 2 K two_pos zero_le_one loop_run (by
    intro k _ y hy m hm
    obtain rfl : m = 0 := by
      have : m < 1 := hm
      omega
    obtain ⟨y', h1, -, h3⟩ := loop_obs k (contribution loopCfg.dc (loopSt k).c 0)
    obtain rfl : y = y' := Except.ok.inj (hy.symm.trans h1)
    rw [h3]
    exact one_ne_zero) ε hε
  have hr : 0 < min ρ (1 / 8) := lt_min hρ (by norm_num)
  obtain ⟨f, c, ds, hf, hc, law, sol, hop, hl, hx, hu, hs, hclk, -⟩ := loop_realisable (fun _ _ => "") loopEx 1
    (fun _ _ => -1) (fun _ _ => 1) rfl rfl rfl _ _ _ loop_state loopClock (loopTiming (min ρ (1 / 8)))
    (loopEx_comparator hr.le)
  rw [hf] at hf'
  cases hf'
  rw [hc] at hc'
  cases hc'
  obtain rfl : D = clockedDef := Except.ok.inj (hD.symm.trans (clocked_def _))
  have al := loop_alike hr.le (lt_of_le_of_lt (min_le_right _ _) (by norm_num)) sol hu hs hclk
  refine ⟨_, sol, hr, al, hlim law sol _ hop hl al (loop_first sol hs) (by norm_num [loopTiming]) (min_le_left _ _)
    (by simpa [loopTiming] using hρ.le) (by simpa [loopTiming] using hρ.le) ?_⟩
  intro n _
  rw [hx]
  show |(2 : ℝ) - 2 * 1| ≤ 2 * ρ
  norm_num
  exact hρ.le

end Cbadc.ClosedLoop
