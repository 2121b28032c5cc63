import Mathlib.Analysis.Complex.ExponentialBounds
import Verif.Lemmas.Mismatch
import Verif.Props.BenchEstimate

/-!
# C173: a Gm-C frontend of finite gain and the package's own simulation

`OTATestBench` asks for a `DC_gain` (`src/cbadc/circuit/testbench.py:420`), and `GmCFrontend` has one of `1e6` by default
(`src/cbadc/circuit/ota.py:160`): the states of the circuit leak, those of the simulated system do not.
-/

namespace Cbadc.ClosedLoop
open Set Cbadc.Analog Cbadc.Control Cbadc.Simulate Cbadc.Circuit Cbadc.Circuit.Spec Cbadc.NgSpice
open Cbadc.Streams Cbadc.Estimator
open Cbadc.TestBench (sourceLines Recorded)
open Cbadc.TestBench.Spec (Holds value)

/-- The simulated states stay within `X` for `K` periods. -/
def Within {M : ℕ} (cfg : Cfg M) (φ : ℕ → ℝ → ℕ → ℝ) (X : ℝ) (K : ℕ) : Prop :=
  ∀ k < K, ∀ τ, 0 ≤ τ → τ ≤ cfg.dc.T → ∀ n < cfg.sys.N, |φ k τ n| ≤ X

/-- A frontend whose states leak follows the simulation of the system without leakage. -/
theorem follows_leaking (ids : String → ℕ → String) (S : Sys ℝ) (mid : ℝ) (G GT : ℕ → ℕ → ℝ) (hG : S.Gamma = some G)
    (hGT : S.GammaT = some GT) (hM : S.M = S.Mt) (hAt : ∀ i < S.Mt, ∀ m < S.M, S.At i m = 0) (rate : ℝ) :
    ∃ c ds D, digitalControl ids S 0 mid = .ok (c, ds) ∧ clockedComparator ids = .ok D ∧
      ∀ (law : Law) (sol : Circuit.Spec.Sol) (p : Timing) (net : List (Line ℝ)) (nodes : List String)
        (cfg : Cfg S.M) (st : ℕ → St S.M) (φ : ℕ → ℝ → ℕ → ℝ) (a g h E X : ℝ) (K : ℕ),
        Loop law sol p mid net nodes (c.definition ids (controlPins S.N S.L S.M)) ds D →
        ⟨"Xdc", .sub "digital_control", (controlPins S.N S.L S.M).map OaPart.ctl.hubPin⟩ ∈ net →
        StateEquation S.N S.L S.M (fun n j => S.A n j - if n = j then rate else 0) S.B G
          (fun n => diff sol (fmt "X" n "_P") (fmt "X" n "_N"))
          (fun l => diff sol (fmt "IN" l "_P") (fmt "IN" l "_N"))
          (fun m => diff sol (fmt "OUT" m "_P") (fmt "OUT" m "_N")) →
        Alike S p sol cfg st → Run cfg st φ →
        0 ≤ a → (∀ n < S.N, ∑ j ∈ Finset.range S.N, |S.A n j - if n = j then rate else 0| ≤ a) →
        0 ≤ g → (∀ n < S.N, ∑ m ∈ Finset.range S.M, |G n m| ≤ g) →
        (∀ m < S.M, ∑ n ∈ Finset.range S.N, |GT m n| ≤ h) → 0 ≤ X → Within cfg φ X K →
        Starts S p sol cfg st g E →
        Clear S p cfg st h (mismatched a cfg.dc.T g p.ramp (|rate| * X) E) K →
        Follows S p sol cfg st φ (mismatched a cfg.dc.T g p.ramp (|rate| * X) E) K := by
  obtain ⟨c, ds, D, hc, hD, hdec⟩ := loop_control ids S mid GT hGT hM
  refine ⟨c, ds, D, hc, hD, ?_⟩
  intro law sol p net nodes cfg st φ a g h E X K hl hmem hx al hrun ha hA hg hGg hGTh hX0 hX hstart hclear
  have hS := al.sys
  have hcl := hdec law sol p net nodes hl hmem
  have hdel := al.delay
  obtain ⟨E₀, hE₀, hx0, hE⟩ := hstart
  have hgd : 0 ≤ 2 * g * cfg.dc.tDelay := by
    rw [hdel]
    have := al.causal.1
    positivity
  have hE0 : E₀ ≤ E := by
    rcases hE with ⟨-, h⟩ | h <;> linarith
  have hV := sub_pos.mpr al.swing
  have hx1 : ∀ n < S.N, |diff sol (fmt "X" n "_P") (fmt "X" n "_N") (st 0).t - (p.high - p.low) * (st 0).x n|
      ≤ (p.high - p.low) * E := fun n hn => (hx0 n hn).trans (mul_le_mul_of_nonneg_left hE0 hV.le)
  have := follow_mismatch cfg G GT (fun n j => S.A n j - if n = j then rate else 0) S.B G GT S.Bt st φ
    (fun n => diff sol (fmt "X" n "_P") (fmt "X" n "_N"))
    (fun l => diff sol (fmt "IN" l "_P") (fmt "IN" l "_N")) (fun m => diff sol (fmt "OUT" m "_P") (fmt "OUT" m "_N"))
    (p.high - p.low) p.ramp p.lo p.hi a g h E (|rate| * X) 0 (by rw [hS]; exact hG) (by rw [hS]; exact hGT) (by rw [hS])
    (by rw [hS]; exact hM.symm) al.some (by rw [hS]; exact hAt) al.steps al.offsets al.transition
    (by rw [hdel]; exact al.causal.1) al.causal.2 (by rw [hdel]; exact al.settled) (sub_pos.mpr al.swing) hrun
    (by rw [hS]; exact hx) (by rw [hS]; exact al.input) (by rw [hS]; exact al.smooth)
    (by
      intro k i hi t ht1 ht2
      rw [hdel] at ht1 ht2
      obtain ⟨f, hper⟩ := al.clock k
      obtain ⟨d1, d2⟩ := hcl _ _ _ hper i (by omega) t (by linarith) (by linarith)
      have z : ∀ τ, ∑ m ∈ Finset.range S.M, S.At i m * diff sol (fmt "OUT" m "_P") (fmt "OUT" m "_N") τ = 0 :=
        fun τ => Finset.sum_eq_zero fun m hm => by rw [hAt i (by omega) m (Finset.mem_range.mp hm), zero_mul]
      simp only [z, add_zero] at d1 d2
      rw [hS]
      exact ⟨d1, fun ha => by rw [d2 ha]; ring⟩)
    al.limited al.decided (by
      rw [hS]
      rcases hE with ⟨h1, -⟩ | h
      · exact Or.inl h1
      · refine Or.inr ⟨by linarith, ?_⟩
        rw [show E - 2 * g * cfg.dc.tDelay = E₀ by linarith]
        exact hx0)
    ha (by rw [hS]; exact hA) hg (by rw [hS]; exact hGg) (by rw [hS]; exact hGTh)
    (hE₀.le.trans hE0) (by positivity) (by rw [hS]; exact hx1) K
    (by
      rw [hS]
      intro k hk τ h0 h1 w hw n hn
      have e1 : ∑ l ∈ Finset.range S.L, (S.B n l - S.B n l) * cfg.input ((st k).ticks + 1) (τ + (st k).t) l = 0 :=
        Finset.sum_eq_zero fun l _ => by rw [sub_self, zero_mul]
      have e2 : ∑ m ∈ Finset.range S.M, (G n m - G n m) * w m = 0 :=
        Finset.sum_eq_zero fun m _ => by rw [sub_self, zero_mul]
      have e3 : ∑ j ∈ Finset.range S.N, ((S.A n j - if n = j then rate else 0) - S.A n j) * φ k τ j
          = - (rate * φ k τ n) := by
        rw [Finset.sum_eq_single n]
        · rw [if_pos rfl]
          ring
        · intro j _ hj
          rw [if_neg (Ne.symm hj)]
          ring
        · intro hh
          exact absurd (Finset.mem_range.mpr hn) hh
      rw [e1, e2, e3, add_zero, add_zero, abs_neg, abs_mul]
      exact mul_le_mul_of_nonneg_left (hX k hk τ h0 h1.le n (by rw [hS]; exact hn)) (abs_nonneg _))
    (by
      rw [hS]
      intro k _ m _
      simp)
    (by
      rw [hS]
      intro k hk y hy m hm
      rw [add_zero]
      exact hclear k hk y hy m hm)
  rw [hS, hdel] at this
  exact this

/-- **C173.**  A circuit simulation of a test bench with a Gm-C frontend of finite `DC_gain` follows the package's own
simulation, in which the states do not leak, up to a deviation to which the leakage contributes in every period; it
gives the same decisions and thus the same estimates, one call late, as long as no observation of the simulation is
too close to zero. -/
theorem C173_gmc_partial (ids : String → ℕ → String) (S : Sys ℝ) (C gain b : ℝ) (hC : C ≠ 0) (hgain : gain ≠ 0)
    (hb : LargestEntry S.N S.L S.B b) (hb0 : b ≠ 0) (G GT : ℕ → ℕ → ℝ)
    (hG : S.Gamma = some G) (hGT : S.GammaT = some GT) (hM : S.M = S.Mt)
    (hAt : ∀ i < S.Mt, ∀ m < S.M, S.At i m = 0) (inputs : List TestBench.Signal) (T tt vdd : ℝ)
    (lines : List TestBench.SourceLine) (hlines : sourceLines ids inputs S.M T tt vdd = .ok lines) (htt : 0 < tt)
    (hT : 2 * tt ≤ T) (hvdd : 0 < vdd) :
    ∃ s ots c ds D, gmcFrontend ids S C (some gain) = .ok (s, ots) ∧ digitalControl ids S 0 (vdd / 2) = .ok (c, ds) ∧
      clockedComparator ids = .ok D ∧
      ∀ (law : Law) (sol : Circuit.Spec.Sol) (v : String → ℝ → ℝ) (cfg : Cfg S.M) (st : ℕ → St S.M)
        (φ : ℕ → ℝ → ℕ → ℝ) (a g h E X : ℝ) (K : ℕ) (tEnd : ℝ) (raw : Raw) (time : ℕ → ℝ),
        (∀ n (h : n < ots.length), ∀ v i, law (fmt "multi_input_ota_" n "") v i → ObeysDef law ots[n] v i) →
        Loop law sol (benchTiming T vdd) (vdd / 2) (s.netlist (Obj.name ids))
          ((List.range S.N).flatMap fun n => [fmt "X" n "_P", fmt "X" n "_N"])
          (c.definition ids (controlPins S.N S.L S.M)) ds D →
        Holds lines v → Bench S inputs T tt vdd v sol cfg st → Run cfg st φ →
        0 ≤ a → (∀ n < S.N, ∑ j ∈ Finset.range S.N, |S.A n j - if n = j then b / (4 * gain) else 0| ≤ a) →
        0 ≤ g → (∀ n < S.N, ∑ m ∈ Finset.range S.M, |G n m| ≤ g) →
        (∀ m < S.M, ∑ n ∈ Finset.range S.N, |GT m n| ≤ h) → 0 ≤ X → Within cfg φ X K →
        Starts S (benchTiming T vdd) sol cfg st g E →
        Clear S (benchTiming T vdd) cfg st h (mismatched a T g (T / 100) (|b / (4 * gain)| * X) E) K →
        Follows S (benchTiming T vdd) sol cfg st φ (mismatched a T g (T / 100) (|b / (4 * gain)| * X) E) K ∧
        (Recorded v T tEnd raw time → (∀ i < raw.n, ∀ m < S.M, raw.v i m = v (fmt "OUT" m "_P") (time i)) →
          (∀ k < K, k + 1 < ⌈tEnd / T⌉₊ → ∃ vec, call (Sim.next (size tEnd T) (vdd / 2) raw) .new (k + 1) = .ok vec ∧
            ∀ m : Fin S.M, vec m = signal (st (k + 1)).c m) ∧
          (0 < tEnd → SameEstimates (circuitSource S.M (size tEnd T) (vdd / 2) raw) (ownSource st)
            (min K (⌈tEnd / T⌉₊ - 1)))) := by
  obtain ⟨s, ots, hs, -, hstate⟩ := (C90_finite_gain ids S C gain hC G hG b hb).2 hb0 hgain
  obtain ⟨c, ds, D, hc, hD, hf⟩ := follows_leaking ids S (vdd / 2) G GT hG hGT hM hAt (b / (4 * gain))
  refine ⟨s, ots, c, ds, D, hs, hc, hD, ?_⟩
  intro law sol v cfg st φ a g h E X K tEnd raw time hot hl hv bn hrun ha hA hg hGg hGTh hX0 hX hst hcl
  have hfol := hf law sol _ _ _ cfg st φ a g h E X K hl (by
    obtain ⟨s', hs', hnet, -⟩ := gmcFrontend_ok ids S G hG C (some gain)
      (fun _ => mul_ne_zero (by rw [absMax_eq hb]; exact hb0) hC)
    rw [hs] at hs'
    injection hs' with e
    obtain ⟨rfl, -⟩ := Prod.mk.inj e
    rw [hnet]
    exact List.mem_cons_self) (by
    refine hstate law sol (loop_senses ids S (vdd / 2) GT hGT hM c ds hc law hl.control hl.compare) hot hl.devices
      fun n hn => ⟨hl.nodes _ ?_, hl.nodes _ ?_⟩
    · exact List.mem_flatMap.mpr ⟨n, List.mem_range.mpr hn, List.mem_cons_self⟩
    · exact List.mem_flatMap.mpr ⟨n, List.mem_range.mpr hn, List.mem_cons_of_mem _ List.mem_cons_self⟩)
    (bench_alike hlines htt hT hvdd hv hl.mid bn hrun) hrun ha hA hg hGg hGTh hX0 hX hst
    (by rw [bn.period]; exact hcl)
  rw [bn.period] at hfol
  refine ⟨hfol, fun hrec hout => ?_⟩
  have hvec := bench_vectors hlines htt hT hvdd hv bn hrun _ K hfol tEnd raw time hrec hout
  refine ⟨hvec, fun hend => ?_⟩
  obtain ⟨vec, h0, -⟩ := (TestBench.C115_partial ids inputs S.M T tt vdd lines hlines v hv htt hT hvdd tEnd raw time
    hrec).1 hend
  exact same_estimates _ _ _ _ _ ⟨vec, h0⟩ fun k hk => hvec k (by omega) (by omega)

/-! ## The leakage matters, and a case -/

/-- The state of the leaking circuit, which is two volts when the simulation starts. -/
noncomputable def leakX (rate : ℝ) (_ : ℕ) (t : ℝ) : ℝ := 2 * Real.exp (-(rate * (t - 1 / 8)))

theorem leak_state (rate : ℝ) : StateEquation loopEx.N loopEx.L loopEx.M (fun n j => loopEx.A n j - if n = j then rate else 0)
    loopEx.B (fun _ _ => -1) (leakX rate) (fun _ _ => 2) fun _ _ => 2 := by
  intro n hn t
  obtain rfl : n = 0 := by
    have : n < 1 := hn
    omega
  have h1 : HasDerivAt (fun t : ℝ => -(rate * (t - 1 / 8))) (-(rate * 1)) t :=
    (((hasDerivAt_id t).sub_const (1 / 8)).const_mul rate).neg
  refine (h1.exp.const_mul 2).congr_deriv ?_
  simp [loopEx, leakX]
  ring

/-- The nodes in the comparator around the common mode. -/
noncomputable def leakPot (rate : ℝ) : String → ℝ → ℝ := fun s t => if s = "IN" then leakX rate 0 t else benchPot s t

theorem leakEx_comparator (rate : ℝ) (i : ℕ) (_ : i < loopEx.Mt) :
    ObeysMixed ⟨0, 0, 1 / 1000, 1 / 1000, 1 / 100, -1, 1⟩ clockedDef
      (comparatorAt loopEx (fun _ _ => 1) (leakX rate) (fun _ _ => 2) (fun _ _ => 2) benchClock i) := by
  have hpos : ∀ t, 0 < leakX rate 0 t := fun t => by
    unfold leakX
    positivity
  refine ⟨leakPot rate, ?_, ?_⟩
  · simp only [clockedDef, List.forall_mem_cons, List.not_mem_nil, false_imp_iff, implies_true, and_true, MixedLaw]
    refine ⟨?_, ?_, ?_, ?_, ?_⟩
    · intro t
      simp only [leakPot, benchPot, String.reduceEq, if_true, if_false, add_sub_cancel_right, sub_zero]
      by_cases h : 0 < benchClock t
      · rw [if_pos h]
        exact ⟨fun h' => absurd h' (not_lt.mpr h.le), fun _ => rfl, fun h' => absurd h' (not_lt.mpr h.le)⟩
      · rw [if_neg h]
        exact ⟨fun _ => rfl, fun h' => absurd h' h, fun _ => by norm_num⟩
    · intro t
      simp only [leakPot, benchPot, String.reduceEq, if_true, if_false, sub_zero]
      have := hpos t
      exact ⟨fun h' => absurd h' (not_lt.mpr this.le), fun _ => trivial, fun h' => absurd h' (not_lt.mpr this.le)⟩
    · rintro e b hb - ⟨ε', hε', hd⟩ t ht hno
      have hb1 : b = 1 := by
        have := hd e (by linarith) (by linarith)
        simp only [leakPot, benchPot, String.reduceEq, if_true, if_false] at this
        exact this.symm
      subst hb1
      simp only [leakPot, benchPot, String.reduceEq, if_true, if_false]
      norm_num
    · intro t
      constructor
      · intro _
        simp only [leakPot, benchPot, String.reduceEq, if_true, if_false]
      · intro h
        have h1 := h t (by norm_num) le_rfl
        simp only [leakPot, benchPot, String.reduceEq, if_true, if_false] at h1
        norm_num at h1
    · intro t
      constructor
      · intro h
        have h1 := h t (by norm_num) le_rfl
        simp only [leakPot, benchPot, String.reduceEq, if_false] at h1
        norm_num at h1
      · intro _
        simp only [leakPot, benchPot, String.reduceEq, if_true, if_false]
  · intro k hk
    have hk' : k < 5 := hk
    funext t
    interval_cases k <;> simp [clockedDef, comparatorPins, leakPot, benchPot, comparatorAt, loopEx]

theorem loopEx_largest : LargestEntry loopEx.N loopEx.L loopEx.B 1 :=
  ⟨⟨0, Nat.one_pos, 0, Nat.one_pos, by simp [loopEx]⟩, fun _ _ _ _ => by simp [loopEx]⟩

/-- A test bench with a leaking frontend whose input and control are constant. -/
theorem leak_circuit (gain : ℝ) : ∃ (lines : List TestBench.SourceLine) (law : Law) (sol : Circuit.Spec.Sol) (s : Circuit.Sub Obj ℝ)
    (ots : List (Def ℝ)) (c : Circuit.Sub Obj ℝ) (ds : List (Def ℝ)),
    sourceLines (fun _ _ => "x") [.sinusoidal 0 1 0 1] loopEx.M 1 (1 / 4) 2 = .ok lines ∧ Holds lines benchV ∧
    gmcFrontend (fun _ _ => "x") loopEx 1 (some gain) = .ok (s, ots) ∧
    digitalControl (fun _ _ => "x") loopEx 0 (2 / 2) = .ok (c, ds) ∧
    (∀ n (h : n < ots.length), ∀ v i, law (fmt "multi_input_ota_" n "") v i → ObeysDef law ots[n] v i) ∧
    Loop law sol (benchTiming 1 2) (2 / 2) (s.netlist (Obj.name fun _ _ => "x"))
      ((List.range loopEx.N).flatMap fun n => [fmt "X" n "_P", fmt "X" n "_N"])
      (c.definition (fun _ _ => "x") (controlPins loopEx.N loopEx.L loopEx.M)) ds clockedDef ∧
    Bench loopEx [.sinusoidal 0 1 0 1] 1 (1 / 4) 2 benchV sol benchCfg benchSt ∧
    Starts loopEx (benchTiming 1 2) sol benchCfg benchSt 1 (1 / 250) ∧
    ∀ t, diff sol (fmt "X" 0 "_P") (fmt "X" 0 "_N") t = leakX (1 / (4 * gain)) 0 t := by
  obtain ⟨lines, hlines, hv⟩ := bench_sources
  have hmax : absMax loopEx.N loopEx.L loopEx.B = 1 := absMax_eq loopEx_largest
  obtain ⟨f, os, c, ds, hf, hc, law, sol, hop, hl, hpot⟩ := loop_realisable_gain_mid (fun _ _ => "x") loopEx 1 (2 / 2)
    (some gain) (fun _ => by rw [hmax]; norm_num) (fun _ _ => -1) (fun _ _ => 1) rfl rfl rfl (leakX (1 / (4 * gain))) _ _
    (by
      have : damped loopEx.A (leak (absMax loopEx.N loopEx.L loopEx.B) (some gain)) =
          fun n j => loopEx.A n j - if n = j then 1 / (4 * gain) else 0 := by
        rw [hmax]
        rfl
      rw [this]
      exact leak_state _) benchClock _ (leakEx_comparator _)
  rw [div_self two_ne_zero] at hpot
  have ht : raisedTiming (2 / 2) ⟨0, 0, 1 / 1000, 1 / 1000, 1 / 100, -1, 1⟩ = benchTiming 1 2 := by
    norm_num [raisedTiming, benchTiming]
  rw [ht] at hl
  have hx : ∀ t, diff sol (fmt "X" 0 "_P") (fmt "X" 0 "_N") t = leakX (1 / (4 * gain)) 0 t := by
    intro t
    unfold diff
    rw [hpot]
    have := clockedPot_x (leakX (1 / (4 * gain))) (fun _ _ => 2) (fun _ _ => 2) benchClock 0 t
    rw [add_sub_add_right_eq_sub, this]
  have hb := bench_bench ⟨_, sol.i⟩ rfl
  have same : ∀ (q : Circuit.Signal), (∀ p n, q ≠ .x p n) → ∀ t, sol.v q.name t =
      clockedPot (fun _ _ => 2) (fun _ _ => 2) (fun _ _ => 2) benchClock q.name t + 1 := by
    intro q hq t
    rw [hpot]
    dsimp only
    rw [clockedPot_signal, clockedPot_signal]
    rcases q with ⟨p, n⟩ | ⟨p, n⟩ | ⟨p, n⟩
    · exact absurd rfl (hq p n)
    · rfl
    · rfl
  refine ⟨lines, law, sol, f, os, c, ds, hlines, hv, hf, hc, hop, hl, { hb with clk := ?_, ins := ?_, outs := ?_ }, ?_, hx⟩
  · intro t h
    have := hb.clk t h
    rw [← this, hpot]
    simp [clockedPot]
  · intro l hl t h
    obtain ⟨h1, h2⟩ := hb.ins l hl t h
    rw [← h1, ← h2]
    exact ⟨same (.u true l) (fun _ _ h => by cases h) t, same (.u false l) (fun _ _ h => by cases h) t⟩
  · intro l hl t h
    obtain ⟨h1, h2⟩ := hb.outs l hl t h
    rw [← h1, ← h2]
    exact ⟨same (.s true l) (fun _ _ h => by cases h) t, same (.s false l) (fun _ _ h => by cases h) t⟩
  · refine ⟨0, le_rfl, ?_, Or.inr ?_⟩
    · intro n hn
      obtain rfl : n = 0 := by
        have : n < 1 := hn
        omega
      rw [hx]
      norm_num [benchTiming, benchSt, leakX]
    · norm_num [benchCfg]

theorem bench_within (K : ℕ) : Within benchCfg benchPhi (1 + 1 / 500) K := by
  intro k _ τ h0 _ n _
  unfold benchPhi
  have h1 : min τ (1 / 500 : ℝ) ≤ 1 / 500 := min_le_right _ _
  have h2 : 0 ≤ min τ (1 / 500 : ℝ) := le_min h0 (by norm_num)
  split_ifs
  · rw [abs_of_nonneg (by linarith)]
    linarith
  · norm_num

/-- The full claim fails: with a gain of a quarter a circuit that meets the conditions of C171, which are for ideal
transconductors, is further from the simulation than they allow after one period. -/
theorem C173_leakage_false : ∃ (lines : List TestBench.SourceLine) (law : Law) (sol : Circuit.Spec.Sol) (s : Circuit.Sub Obj ℝ)
    (ots : List (Def ℝ)) (c : Circuit.Sub Obj ℝ) (ds : List (Def ℝ)),
    sourceLines (fun _ _ => "x") [.sinusoidal 0 1 0 1] loopEx.M 1 (1 / 4) 2 = .ok lines ∧ Holds lines benchV ∧
    gmcFrontend (fun _ _ => "x") loopEx 1 (some (1 / 4)) = .ok (s, ots) ∧
    digitalControl (fun _ _ => "x") loopEx 0 (2 / 2) = .ok (c, ds) ∧
    (∀ n (h : n < ots.length), ∀ v i, law (fmt "multi_input_ota_" n "") v i → ObeysDef law ots[n] v i) ∧
    Loop law sol (benchTiming 1 2) (2 / 2) (s.netlist (Obj.name fun _ _ => "x"))
      ((List.range loopEx.N).flatMap fun n => [fmt "X" n "_P", fmt "X" n "_N"])
      (c.definition (fun _ _ => "x") (controlPins loopEx.N loopEx.L loopEx.M)) ds clockedDef ∧
    Bench loopEx [.sinusoidal 0 1 0 1] 1 (1 / 4) 2 benchV sol benchCfg benchSt ∧ Run benchCfg benchSt benchPhi ∧
    (∀ n < loopEx.N, ∑ j ∈ Finset.range loopEx.N, |loopEx.A n j| ≤ 0) ∧
    Starts loopEx (benchTiming 1 2) sol benchCfg benchSt 1 (1 / 250) ∧
    Clear loopEx (benchTiming 1 2) benchCfg benchSt 1 (deviation 0 1 1 (1 / 100) (1 / 250)) 1 ∧
    ¬ Follows loopEx (benchTiming 1 2) sol benchCfg benchSt benchPhi (deviation 0 1 1 (1 / 100) (1 / 250)) 1 := by
  obtain ⟨lines, law, sol, s, ots, c, ds, h1, h2, h3, h4, h5, h6, h7, h8, h9⟩ := leak_circuit (1 / 4)
  refine ⟨lines, law, sol, s, ots, c, ds, h1, h2, h3, h4, h5, h6, h7, bench_run, fun _ _ => by simp [loopEx], h8,
    fun k hk => bench_clear k (by omega), ?_⟩
  intro hf
  have := hf.1 1 le_rfl 0 Nat.one_pos
  rw [h9] at this
  have e1 : leakX (1 / (4 * (1 / 4))) 0 (benchSt 1).t < 1 := by
    unfold leakX
    have h : (benchSt 1).t = 9 / 8 := by norm_num [benchSt]
    rw [h]
    norm_num
    rw [Real.exp_neg]
    have := Real.exp_one_gt_d9
    rw [← div_eq_mul_inv, div_lt_one (Real.exp_pos 1)]
    linarith
  have e2 : (benchTiming 1 2).high - (benchTiming 1 2).low = 2 := by norm_num [benchTiming]
  have e3 : (benchSt 1).x 0 = 1 + 1 / 500 := by norm_num [benchSt]
  rw [e2, e3, abs_le] at this
  have h := this.1
  norm_num [deviation] at h
  linarith

/-- The hypotheses of `C173_gmc_partial` are met with a gain of a thousand: the state decays slowly from two volts. -/
example : ∃ (sol : Circuit.Spec.Sol) (lines : List TestBench.SourceLine),
    sourceLines (fun _ _ => "x") [.sinusoidal 0 1 0 1] loopEx.M 1 (1 / 4) 2 = .ok lines ∧ Holds lines benchV ∧
    Bench loopEx [.sinusoidal 0 1 0 1] 1 (1 / 4) 2 benchV sol benchCfg benchSt ∧
    (∀ t, diff sol (fmt "X" 0 "_P") (fmt "X" 0 "_N") t = leakX (1 / 4000) 0 t) ∧
    (∀ k < 2, ∃ vec, call (Sim.next (size 3 1) (2 / 2) (benchRaw benchV 13)) .new (k + 1) = .ok vec ∧ vec 0 = 1) ∧
    SameEstimates (circuitSource loopEx.M (size 3 1) (2 / 2) (benchRaw benchV 13)) (ownSource benchSt) 2 := by
  obtain ⟨lines, law, sol, s, ots, c, ds, h1, h2, h3, h4, h5, h6, h7, h8, h9⟩ := leak_circuit 1000
  obtain ⟨s', ots', c', ds', D, hs', hc', hD, h⟩ := C173_gmc_partial (fun _ _ => "x") loopEx 1 1000 1 one_ne_zero
    (by norm_num) loopEx_largest one_ne_zero (fun _ _ => -1) (fun _ _ => 1) rfl rfl rfl (fun _ _ _ _ => rfl) _ 1 (1 / 4) 2
    lines h1 (by norm_num) (by norm_num) (by norm_num)
  rw [h3] at hs'
  cases hs'
  rw [h4] at hc'
  cases hc'
  obtain rfl : D = clockedDef := Except.ok.inj (hD.symm.trans (clocked_def _))
  have key := (h law sol benchV benchCfg benchSt benchPhi (1 / 4000) 1 1 (1 / 250) (1 + 1 / 500) 2 3 (benchRaw benchV 13) _
    h5 h6 h2 h7 bench_run (by norm_num) (fun n hn => by
      obtain rfl : n = 0 := by
        have : n < 1 := hn
        omega
      norm_num [loopEx]) zero_le_one (fun _ _ => by simp [loopEx]) (fun _ _ => by simp [loopEx]) (by norm_num)
    (bench_within 2) h8 (by
      intro k hk y hy m hm
      obtain rfl : m = 0 := by
        have : m < 1 := hm
        omega
      obtain ⟨y', h1, -, h3⟩ := bench_obs k (contribution benchCfg.dc (benchSt k).c 0)
      obtain rfl : y = y' := Except.ok.inj (hy.symm.trans h1)
      have h4 : 1 ≤ |y.v 0| := h3.trans (le_abs_self _)
      have h5 : Real.exp (1 / 4000 * 1) ≤ 3 :=
        (Real.exp_le_exp.mpr (by norm_num)).trans (Real.exp_one_lt_d9.le.trans (by norm_num))
      have h6 : max |(benchTiming 1 2).lo| |(benchTiming 1 2).hi| = 0 := by norm_num [benchTiming]
      have h7 : (benchTiming 1 2).high - (benchTiming 1 2).low = 2 := by norm_num [benchTiming]
      rw [h6, h7]
      have h8 : mismatched (1 / 4000) 1 1 (1 / 100) (|(1 : ℝ) / (4 * 1000)| * (1 + 1 / 500)) (1 / 250) k < 1 := by
        interval_cases k
        · norm_num [mismatched]
        · rw [mismatched, mismatched, abs_of_pos (by norm_num)]
          have := mul_le_mul_of_nonneg_left h5
            (show (0 : ℝ) ≤ 1 / 250 + 2 * 1 * (1 / 100) + 1 / (4 * 1000) * (1 + 1 / 500) * 1 by norm_num)
          refine this.trans_lt ?_
          norm_num
      linarith)).2 (bench_recorded benchV) (fun _ _ _ _ => rfl)
  refine ⟨sol, lines, h1, h2, h7, fun t => by rw [h9]; norm_num, ?_, ?_⟩
  · intro k hk
    obtain ⟨vec, h1, h2⟩ := key.1 k hk (by rw [Nat.lt_ceil]; interval_cases k <;> norm_num)
    exact ⟨vec, h1, (h2 ⟨0, Nat.one_pos⟩).trans (by
      interval_cases k <;> simp [benchSt, signal])⟩
  · have := key.2 (by norm_num)
    have e : min 2 (⌈(3 : ℝ) / 1⌉₊ - 1) = 2 := by
      rw [div_one, show (3 : ℝ) = ((3 : ℕ) : ℝ) by norm_num, Nat.ceil_natCast]
      rfl
    rw [e] at this
    exact this

end Cbadc.ClosedLoop
