import Verif.Props.ClosedLoop
import Verif.Lemmas.LoopShift
import Verif.Props.TestBenchTiming

/-!
# C171: the control vectors of a circuit simulation and those of the package's own simulation

The test bench with its sources, the frontend with its digital control in it and the parser of the recorded
voltages, against `FullSimulator`.
-/

namespace Cbadc.ClosedLoop
open Set Cbadc.Analog Cbadc.Control Cbadc.Simulate Cbadc.Circuit Cbadc.Circuit.Spec Cbadc.NgSpice Cbadc.NgSpice.Spec
open Cbadc.Streams
open Cbadc.TestBench (sourceLines pulseWave Recorded)
open Cbadc.TestBench.Spec (Holds value wanted High)

/-- The devices of the comparators in a test bench with a clock of period `T` and the supply voltage `vdd`:
thresholds at zero (`src/cbadc/circuit/testbench.py:358-364`), delays of a thousandth and ramps of a hundredth of the
period (`src/cbadc/circuit/digital_control.py:185-210`, `src/cbadc/circuit/components/comparator.py:331-375`), levels
zero and `vdd` (`src/cbadc/circuit/analog_frontend.py:45-52`). -/
noncomputable def benchTiming (T vdd : ℝ) : Timing := ⟨0, 0, T / 1000, T / 1000, T / 100, 0, vdd⟩

/-- The test bench and the simulator are set up alike: the same system and as many input signals as it has inputs,
the clock of the test bench as clock of the digital control, with the delay of the comparators; the simulator starts
when the clock rises for the first time and gets the voltages at the inputs in units of the supply; the frontend is
connected to the nodes of the test bench of the same names, and its outputs stay between the supplies. -/
structure Bench (S : Sys ℝ) (inputs : List TestBench.Signal) (T tt vdd : ℝ) (v : String → ℝ → ℝ)
    (sol : Circuit.Spec.Sol) (cfg : Cfg S.M) (st : ℕ → St S.M) : Prop where
  sys : cfg.sys = S
  count : inputs.length = S.L
  hasInput : cfg.hasInput = true
  steps : ∀ m, cfg.dc.ir m = stepResponse 0
  offsets : ∀ m, cfg.dc.offsets m = 0
  transition : 0 ≤ cfg.dc.tt2
  period : cfg.dc.T = T
  delay : cfg.dc.tDelay = T / 500
  start : (st 0).t = tt / 2
  control : ∀ m, |(st 0).c.cur m| ≤ 1
  signals : ∀ l < S.L, ∃ a f ph o, inputs[l]? = some (.sinusoidal a f ph o) ∧ ∀ k t, 0 ≤ t →
    vdd * cfg.input k t l = a * Real.sin (2 * Real.pi * f * t + ph * Real.pi / 180) + 2 * o
  clk : ∀ t, 0 ≤ t → sol.v "CLK" t = v "CLK" t
  ins : ∀ l < S.L, ∀ t, 0 ≤ t → sol.v (fmt "IN" l "_P") t = v (fmt "IN" l "_P") t ∧
    sol.v (fmt "IN" l "_N") t = v (fmt "IN" l "_N") t
  outs : ∀ m < S.M, ∀ t, 0 ≤ t → sol.v (fmt "OUT" m "_P") t = v (fmt "OUT" m "_P") t ∧
    sol.v (fmt "OUT" m "_N") t = v (fmt "OUT" m "_N") t
  rails : ∀ m < S.M, ∀ t, 0 ≤ t → (0 ≤ v (fmt "OUT" m "_P") t ∧ v (fmt "OUT" m "_P") t ≤ vdd) ∧
    0 ≤ v (fmt "OUT" m "_N") t ∧ v (fmt "OUT" m "_N") t ≤ vdd

/-- The clock is below the common mode outside of its high phases. -/
theorem clock_low (T tt vdd : ℝ) (htt : 0 < tt) (hT : 2 * tt ≤ T) (hv : 0 < vdd) (t : ℝ) (ht : 0 ≤ t) (k : ℕ)
    (h : (k * T + T / 2 + tt / 2 < t ∧ t < (k + 1) * T) ∨ (k * T ≤ t ∧ t < k * T + tt / 2)) :
    value (pulseWave 0 vdd T tt tt) t < vdd / 2 := by
  have hT0 : 0 < T := by linarith
  have hfl : ⌊(t - 0) / T⌋ = (k : ℤ) := by
    rw [Int.floor_eq_iff, le_div_iff₀ hT0, div_lt_iff₀ hT0]
    push_cast
    rcases h with ⟨h1, h2⟩ | ⟨h1, h2⟩ <;> constructor <;> linarith
  have hval : value (pulseWave 0 vdd T tt tt) t =
      if t < 0 then 0
      else if t - 0 - T * (⌊(t - 0) / T⌋ : ℝ) < tt then 0 + (vdd - 0) * ((t - 0 - T * (⌊(t - 0) / T⌋ : ℝ)) / tt)
      else if t - 0 - T * (⌊(t - 0) / T⌋ : ℝ) < tt + (T * (1 / 2) - tt) then vdd
      else if t - 0 - T * (⌊(t - 0) / T⌋ : ℝ) < tt + (T * (1 / 2) - tt) + tt then
        vdd + (0 - vdd) * ((t - 0 - T * (⌊(t - 0) / T⌋ : ℝ) - (tt + (T * (1 / 2) - tt))) / tt)
      else 0 := rfl
  have hp : t - 0 - T * (⌊(t - 0) / T⌋ : ℝ) = t - k * T := by
    rw [hfl]
    push_cast
    ring
  rw [hval, hp, if_neg (not_lt.mpr ht)]
  rcases h with ⟨h1, h2⟩ | ⟨h1, h2⟩
  · rw [if_neg (by linarith), if_neg (by linarith)]
    by_cases h3 : t - k * T < tt + (T * (1 / 2) - tt) + tt
    · rw [if_pos h3]
      have : 1 / 2 < (t - k * T - (tt + (T * (1 / 2) - tt))) / tt := by
        rw [lt_div_iff₀ htt]
        linarith
      nlinarith
    · rw [if_neg h3]
      linarith
  · rw [if_pos (by linarith)]
    have : (t - k * T) / tt < 1 / 2 := by
      rw [div_lt_iff₀ htt]
      linarith
    nlinarith

section

variable {ids : String → ℕ → String} {S : Sys ℝ} {inputs : List TestBench.Signal} {T tt vdd : ℝ}
  {lines : List TestBench.SourceLine} {v : String → ℝ → ℝ} {sol : Circuit.Spec.Sol} {cfg : Cfg S.M} {st : ℕ → St S.M}
  {φ : ℕ → ℝ → ℕ → ℝ}

/-- The times at which the periods of the simulator start. -/
theorem bench_time (b : Bench S inputs T tt vdd v sol cfg st) (hr : Run cfg st φ) (k : ℕ) :
    (st k).t = k * T + tt / 2 := by
  induction k with
  | zero => rw [b.start, Nat.cast_zero, zero_mul, zero_add]
  | succ k ih =>
    rw [(hr k).time, ih, b.period]
    push_cast
    ring

/-- The circuit in the test bench is set up like the simulation. -/
theorem bench_alike (h : sourceLines ids inputs S.M T tt vdd = .ok lines) (htt : 0 < tt) (hT : 2 * tt ≤ T)
    (hvdd : 0 < vdd) (hv : Holds lines v) (hmid : ∀ t, sol.v "VCM" t = vdd / 2)
    (b : Bench S inputs T tt vdd v sol cfg st) (hr : Run cfg st φ) : Alike S (benchTiming T vdd) sol cfg st := by
  have hT0 : 0 < T := by linarith
  have hk0 : ∀ k : ℕ, 0 ≤ (k : ℝ) * T := fun k => by positivity
  have hin : ∀ l < S.L, ∃ a f ph o, (∀ k t, 0 ≤ t →
      vdd * cfg.input k t l = a * Real.sin (2 * Real.pi * f * t + ph * Real.pi / 180) + 2 * o) ∧
      ∀ t, 0 ≤ t → diff sol (fmt "IN" l "_P") (fmt "IN" l "_N") t =
        a * Real.sin (2 * Real.pi * f * t + ph * Real.pi / 180) + 2 * o := by
    intro l hl
    obtain ⟨a, f, ph, o, h1, h2⟩ := b.signals l hl
    refine ⟨a, f, ph, o, h2, fun t ht => ?_⟩
    obtain ⟨e1, e2⟩ := TestBench.input_voltage ids inputs S.M T tt vdd lines h v hv l a f ph o h1 t ht
    unfold diff
    rw [(b.ins l hl t ht).1, (b.ins l hl t ht).2, e1, e2]
    ring
  refine ⟨b.sys, b.hasInput, b.steps, b.offsets, b.transition, ?_, ?_, ?_, ?_, ?_, ?_, ?_, ?_, b.control⟩
  · rw [b.delay]
    simp only [benchTiming]
    ring
  · simp only [benchTiming]
    constructor <;> positivity
  · rw [b.period]
    simp only [benchTiming]
    linarith
  · exact hvdd
  · intro k t ht l hl
    obtain ⟨a, f, ph, o, h1, h2⟩ := hin l hl
    have ht0 : 0 ≤ t := by
      rw [b.start] at ht
      linarith
    rw [h2 t ht0, ← h1 k t ht0]
    simp only [benchTiming, sub_zero]
  · intro l hl k
    obtain ⟨a, f, ph, o, -, h2⟩ := hin l hl
    have hpos : 0 < (st k).t := by
      rw [bench_time b hr]
      linarith [hk0 k]
    have hc : ContinuousAt (fun t => a * Real.sin (2 * Real.pi * f * t + ph * Real.pi / 180) + 2 * o) (st k).t := by
      apply Continuous.continuousAt
      fun_prop
    refine hc.congr ?_
    filter_upwards [lt_mem_nhds hpos] with t ht
    exact (h2 t (le_of_lt ht)).symm
  · intro k
    have hclk : ∀ t, 0 ≤ t → diff sol "CLK" "VCM" t = value (pulseWave 0 vdd T tt tt) t - vdd / 2 := by
      intro t ht
      obtain ⟨waves, _, hm⟩ := TestBench.lines_mem ids inputs S.M T tt vdd lines h
      have h3 := hv.2 _ ((hm _).mpr (Or.inl (Or.inr (Or.inr rfl)))) t ht
      have h3' : v "CLK" t - v "0" t = value (pulseWave 0 vdd T tt tt) t := h3
      rw [hv.1, sub_zero] at h3'
      unfold diff
      rw [b.clk t ht, hmid, h3']
    refine ⟨k * T + T / 2 + tt / 2, ?_⟩
    rw [bench_time b hr, bench_time b hr]
    simp only [benchTiming]
    push_cast
    refine ⟨by linarith, by linarith, ⟨tt / 2, by linarith, ?_⟩, ?_, ?_⟩
    · intro t h1 h2
      have ht : 0 ≤ t := by linarith [hk0 k]
      have := clock_low T tt vdd htt hT hvdd t ht k (Or.inr ⟨by linarith, h2⟩)
      rw [hclk t ht]
      linarith
    · intro t h1 h2
      have ht : 0 ≤ t := by linarith [hk0 k]
      have := (TestBench.clock_high T tt vdd htt hT hvdd t ht).2.mpr ⟨k, h1, h2⟩
      rw [hclk t ht]
      linarith
    · intro t h1 h2
      have ht : 0 ≤ t := by linarith [hk0 k]
      have : value (pulseWave 0 vdd T tt tt) t < vdd / 2 := by
        rcases lt_or_ge t ((k + 1) * T) with h3 | h3
        · exact clock_low T tt vdd htt hT hvdd t ht k (Or.inl ⟨h1, h3⟩)
        · exact clock_low T tt vdd htt hT hvdd t ht (k + 1) (Or.inr ⟨by push_cast; exact h3, by push_cast; exact h2⟩)
      rw [hclk t ht]
      linarith
  · intro m hm t ht
    have ht0 : 0 ≤ t := by
      rw [b.start] at ht
      linarith
    obtain ⟨⟨r1, r2⟩, r3, r4⟩ := b.rails m hm t ht0
    unfold diff
    rw [(b.outs m hm t ht0).1, (b.outs m hm t ht0).2]
    simp only [benchTiming, sub_zero]
    rw [abs_le]
    constructor <;> linarith

/-- What the simulator decides is zero or one. -/
theorem bench_binary (b : Bench S inputs T tt vdd v sol cfg st) (hr : Run cfg st φ) (k : ℕ) (m : Fin S.M) :
    signal (st (k + 1)).c m = 0 ∨ signal (st (k + 1)).c m = 1 := by
  obtain ⟨y, -, -, h3⟩ := (decide_ok cfg (st k) _).mp (hr k).dec
  have := (update_plain cfg.dc b.steps b.offsets b.transition (st k).c (fun m => y.v m) m).1
  rw [h3]
  show (update cfg.dc (st k).c 0 fun m => y.v m).s m = 0 ∨ (update cfg.dc (st k).c 0 fun m => y.v m).s m = 1
  rw [this]
  split_ifs
  · exact Or.inr rfl
  · exact Or.inl rfl

/-- What the parser reads from a circuit that follows the simulation. -/
theorem bench_vectors (h : sourceLines ids inputs S.M T tt vdd = .ok lines) (htt : 0 < tt) (hT : 2 * tt ≤ T)
    (hvdd : 0 < vdd) (hv : Holds lines v) (b : Bench S inputs T tt vdd v sol cfg st) (hr : Run cfg st φ)
    (dev : ℕ → ℝ) (K : ℕ) (hf : Follows S (benchTiming T vdd) sol cfg st φ dev K) (tEnd : ℝ) (raw : Raw)
    (time : ℕ → ℝ) (hrec : Recorded v T tEnd raw time)
    (hout : ∀ i < raw.n, ∀ m < S.M, raw.v i m = v (fmt "OUT" m "_P") (time i)) (k : ℕ) (hk : k < K)
    (hend : k + 1 < ⌈tEnd / T⌉₊) :
    ∃ vec, call (Sim.next (size tEnd T) (vdd / 2) raw) .new (k + 1) = .ok vec ∧
      ∀ m : Fin S.M, vec m = signal (st (k + 1)).c m := by
  have hT0 : 0 < T := by linarith
  obtain ⟨i, vec, hi, t1, t2, -, hcall, hdig⟩ :=
    (TestBench.C115_partial ids inputs S.M T tt vdd lines h v hv htt hT hvdd tEnd raw time hrec).2 k hend
  refine ⟨vec, hcall, fun m => ?_⟩
  have ht0 : 0 ≤ time i := hrec.nonneg i hi
  have ho := hf.2.2 k hk m (time i) (by
    rw [bench_time b hr]
    simp only [benchTiming]
    linarith) (by
    rw [bench_time b hr]
    simp only [benchTiming]
    push_cast
    linarith)
  obtain ⟨⟨r1, r2⟩, r3, r4⟩ := b.rails m m.2 (time i) ht0
  unfold diff at ho
  rw [(b.outs m m.2 _ ht0).1, (b.outs m m.2 _ ht0).2] at ho
  simp only [benchTiming, sub_zero] at ho
  have hd := hdig m
  rw [hout i hi m m.2] at hd
  rcases bench_binary b hr k m with e | e
  · rw [e] at ho ⊢
    have hz : v (fmt "OUT" m "_P") (time i) = 0 := by linarith
    rw [hz, zero_div] at hd
    rcases hd with ⟨-, hd⟩ | ⟨hd, -⟩ | ⟨hd, -⟩
    · exact hd
    · norm_num at hd
    · norm_num at hd
  · rw [e] at ho ⊢
    have hz : v (fmt "OUT" m "_P") (time i) = vdd := by linarith
    rw [hz, div_self hvdd.ne'] at hd
    rcases hd with ⟨hd, -⟩ | ⟨-, hd, -⟩ | ⟨-, hd⟩
    · norm_num at hd
    · norm_num at hd
    · exact hd

end

/-- **C171.**  An ngspice simulation of a test bench with an op-amp frontend delivers, one vector late, the control
vectors of the package's own simulation of the same system, as long as no observation of that simulation is too close
to zero. -/
theorem C171_opamp_partial (ids : String → ℕ → String) (S : Sys ℝ) (C : ℝ) (hC : C ≠ 0) (G GT : ℕ → ℕ → ℝ)
    (hG : S.Gamma = some G) (hGT : S.GammaT = some GT) (hM : S.M = S.Mt)
    (hAt : ∀ i < S.Mt, ∀ m < S.M, S.At i m = 0) (inputs : List TestBench.Signal) (T tt vdd : ℝ)
    (lines : List TestBench.SourceLine) (hlines : sourceLines ids inputs S.M T tt vdd = .ok lines) (htt : 0 < tt)
    (hT : 2 * tt ≤ T) (hvdd : 0 < vdd) :
    ∃ s c ds D, opampFrontend ids S C = .ok s ∧ digitalControl ids S 0 (vdd / 2) = .ok (c, ds) ∧
      clockedComparator ids = .ok D ∧
      ∀ (law : Law) (sol : Circuit.Spec.Sol) (v : String → ℝ → ℝ) (cfg : Cfg S.M) (st : ℕ → St S.M)
        (φ : ℕ → ℝ → ℕ → ℝ) (a g h E : ℝ) (K : ℕ) (tEnd : ℝ) (raw : Raw) (time : ℕ → ℝ),
        (∀ v i, law "opamp" v i → IdealOpamp v i) →
        Loop law sol (benchTiming T vdd) (vdd / 2) (s.netlist (Obj.name ids)) (grounds S.N)
          (c.definition ids (controlPins S.N S.L S.M)) ds D →
        Holds lines v → Bench S inputs T tt vdd v sol cfg st → Run cfg st φ →
        0 ≤ a → (∀ n < S.N, ∑ j ∈ Finset.range S.N, |S.A n j| ≤ a) →
        0 ≤ g → (∀ n < S.N, ∑ m ∈ Finset.range S.M, |G n m| ≤ g) →
        (∀ m < S.M, ∑ n ∈ Finset.range S.N, |GT m n| ≤ h) →
        Starts S (benchTiming T vdd) sol cfg st g E →
        Clear S (benchTiming T vdd) cfg st h (deviation a T g (T / 100) E) K →
        Recorded v T tEnd raw time → (∀ i < raw.n, ∀ m < S.M, raw.v i m = v (fmt "OUT" m "_P") (time i)) →
        Follows S (benchTiming T vdd) sol cfg st φ (deviation a T g (T / 100) E) K ∧
        ∀ k < K, k + 1 < ⌈tEnd / T⌉₊ → ∃ vec, call (Sim.next (size tEnd T) (vdd / 2) raw) .new (k + 1) = .ok vec ∧
          ∀ m : Fin S.M, vec m = signal (st (k + 1)).c m := by
  obtain ⟨s, c, ds, D, hs, hc, hD, hf⟩ := C170_follows_partial ids S C hC (vdd / 2) G GT hG hGT hM hAt
  refine ⟨s, c, ds, D, hs, hc, hD, ?_⟩
  intro law sol v cfg st φ a g h E K tEnd raw time hop hl hv b hrun ha hA hg hGg hGTh hst hcl hrec hout
  have hfol := hf law sol _ cfg st φ a g h E K hop hl (bench_alike hlines htt hT hvdd hv hl.mid b hrun) hrun ha hA hg
    hGg hGTh hst (by rw [b.period]; exact hcl)
  rw [b.period] at hfol
  exact ⟨hfol, bench_vectors hlines htt hT hvdd hv b hrun _ K hfol tEnd raw time hrec hout⟩

/-- The same for the test bench with a Gm-C frontend of ideal transconductors. -/
theorem C171_gmc_partial (ids : String → ℕ → String) (S : Sys ℝ) (C : ℝ) (hC : C ≠ 0) (G GT : ℕ → ℕ → ℝ)
    (hG : S.Gamma = some G) (hGT : S.GammaT = some GT) (hM : S.M = S.Mt)
    (hAt : ∀ i < S.Mt, ∀ m < S.M, S.At i m = 0) (inputs : List TestBench.Signal) (T tt vdd : ℝ)
    (lines : List TestBench.SourceLine) (hlines : sourceLines ids inputs S.M T tt vdd = .ok lines) (htt : 0 < tt)
    (hT : 2 * tt ≤ T) (hvdd : 0 < vdd) :
    ∃ s ots c ds D, gmcFrontend ids S C none = .ok (s, ots) ∧ digitalControl ids S 0 (vdd / 2) = .ok (c, ds) ∧
      clockedComparator ids = .ok D ∧
      ∀ (law : Law) (sol : Circuit.Spec.Sol) (v : String → ℝ → ℝ) (cfg : Cfg S.M) (st : ℕ → St S.M)
        (φ : ℕ → ℝ → ℕ → ℝ) (a g h E : ℝ) (K : ℕ) (tEnd : ℝ) (raw : Raw) (time : ℕ → ℝ),
        (∀ n (h : n < ots.length), ∀ v i, law (fmt "multi_input_ota_" n "") v i → ObeysDef law ots[n] v i) →
        Loop law sol (benchTiming T vdd) (vdd / 2) (s.netlist (Obj.name ids))
          ((List.range S.N).flatMap fun n => [fmt "X" n "_P", fmt "X" n "_N"])
          (c.definition ids (controlPins S.N S.L S.M)) ds D →
        Holds lines v → Bench S inputs T tt vdd v sol cfg st → Run cfg st φ →
        0 ≤ a → (∀ n < S.N, ∑ j ∈ Finset.range S.N, |S.A n j| ≤ a) →
        0 ≤ g → (∀ n < S.N, ∑ m ∈ Finset.range S.M, |G n m| ≤ g) →
        (∀ m < S.M, ∑ n ∈ Finset.range S.N, |GT m n| ≤ h) →
        Starts S (benchTiming T vdd) sol cfg st g E →
        Clear S (benchTiming T vdd) cfg st h (deviation a T g (T / 100) E) K →
        Recorded v T tEnd raw time → (∀ i < raw.n, ∀ m < S.M, raw.v i m = v (fmt "OUT" m "_P") (time i)) →
        Follows S (benchTiming T vdd) sol cfg st φ (deviation a T g (T / 100) E) K ∧
        ∀ k < K, k + 1 < ⌈tEnd / T⌉₊ → ∃ vec, call (Sim.next (size tEnd T) (vdd / 2) raw) .new (k + 1) = .ok vec ∧
          ∀ m : Fin S.M, vec m = signal (st (k + 1)).c m := by
  obtain ⟨s, ots, c, ds, D, hs, hc, hD, hf⟩ := C170_gmc_partial ids S C hC (vdd / 2) G GT hG hGT hM hAt
  refine ⟨s, ots, c, ds, D, hs, hc, hD, ?_⟩
  intro law sol v cfg st φ a g h E K tEnd raw time hop hl hv b hrun ha hA hg hGg hGTh hst hcl hrec hout
  have hfol := hf law sol _ cfg st φ a g h E K hop hl (bench_alike hlines htt hT hvdd hv hl.mid b hrun) hrun ha hA hg
    hGg hGTh hst (by rw [b.period]; exact hcl)
  rw [b.period] at hfol
  exact ⟨hfol, bench_vectors hlines htt hT hvdd hv b hrun _ K hfol tEnd raw time hrec hout⟩

/-- C171 fails when the signals of the test bench are given to the simulator as they are: unless the supply is one
volt, the simulator then does not get the voltages at the inputs in units of the supply. -/
theorem C171_signals_false (S : Sys ℝ) (hL : S.L = 1) (amp f T tt vdd : ℝ) (hamp : amp ≠ 0) (hf : f ≠ 0) (hvdd : vdd ≠ 1)
    (v : String → ℝ → ℝ) (sol : Circuit.Spec.Sol) (cfg : Cfg S.M) (st : ℕ → St S.M)
    (hin : ∀ k t, cfg.input k t 0 = wanted amp f 0 0 t) :
    ¬ Bench S [.sinusoidal amp f 0 0] T tt vdd v sol cfg st := by
  intro b
  obtain ⟨a', f', ph, o, h1, h2⟩ := b.signals 0 (by omega)
  simp only [List.getElem?_cons_zero, Option.some.injEq, TestBench.Signal.sinusoidal.injEq] at h1
  obtain ⟨rfl, rfl, rfl, rfl⟩ := h1
  have h3 := h2 0 (1 / (4 * |f|)) (by positivity)
  rw [hin] at h3
  unfold wanted at h3
  have hs : Real.sin (2 * Real.pi * f * (1 / (4 * |f|))) ≠ 0 := by
    rcases lt_or_gt_of_ne hf with h | h
    · rw [abs_of_neg h, show 2 * Real.pi * f * (1 / (4 * -f)) = - (Real.pi / 2) by field_simp; ring, Real.sin_neg,
        Real.sin_pi_div_two]
      norm_num
    · rw [abs_of_pos h, show 2 * Real.pi * f * (1 / (4 * f)) = Real.pi / 2 by field_simp; ring, Real.sin_pi_div_two]
      norm_num
  simp only [add_zero, zero_mul, zero_div, mul_zero] at h3
  have : (vdd - 1) * (amp * Real.sin (2 * Real.pi * f * (1 / (4 * |f|)))) = 0 := by linarith
  rcases mul_eq_zero.mp this with h | h
  · exact hvdd (by linarith)
  · exact mul_ne_zero hamp hs h

/-! ## A case -/

/-- The clock of a test bench with period one, transition time 1/4 and supply two, around the common mode. -/
noncomputable def benchClock (t : ℝ) : ℝ := value (pulseWave 0 2 1 (1 / 4) (1 / 4)) t - 1

/-- The nodes in the comparator around the common mode: input and output are constant. -/
noncomputable def benchPot : String → ℝ → ℝ := fun s t =>
  if s = "CLK" then benchClock t
  else if s = "CLKD" then (if 0 < benchClock (t - 1 / 1000) then 1 else 0)
  else if s = "IN" then 2
  else if s = "OUT" then 1
  else if s = "F_OUT_P" then 1
  else if s = "OUT_P" then 1
  else if s = "OUT_N" then -1
  else 0

theorem benchEx_comparator (i : ℕ) (_ : i < loopEx.Mt) :
    ObeysMixed ⟨0, 0, 1 / 1000, 1 / 1000, 1 / 100, -1, 1⟩ clockedDef
      (comparatorAt loopEx (fun _ _ => 1) (fun _ _ => 2) (fun _ _ => 2) (fun _ _ => 2) benchClock i) := by
  refine ⟨benchPot, ?_, ?_⟩
  · simp only [clockedDef, List.forall_mem_cons, List.not_mem_nil, false_imp_iff, implies_true, and_true, MixedLaw]
    refine ⟨?_, ?_, ?_, ?_, ?_⟩
    · intro t
      simp only [benchPot, String.reduceEq, if_true, if_false, add_sub_cancel_right, sub_zero]
      by_cases h : 0 < benchClock t
      · rw [if_pos h]
        exact ⟨fun h' => absurd h' (not_lt.mpr h.le), fun _ => rfl, fun h' => absurd h' (not_lt.mpr h.le)⟩
      · rw [if_neg h]
        exact ⟨fun _ => rfl, fun h' => absurd h' h, fun _ => by norm_num⟩
    · intro t
      simp only [benchPot, String.reduceEq, if_true, if_false]
      norm_num
    · rintro e b hb - ⟨ε', hε', hd⟩ t ht hno
      have hb1 : b = 1 := by
        have := hd e (by linarith) (by linarith)
        simp only [benchPot, String.reduceEq, if_true, if_false] at this
        exact this.symm
      subst hb1
      simp only [benchPot, String.reduceEq, if_true, if_false]
      norm_num
    · intro t
      constructor
      · intro _
        simp only [benchPot, String.reduceEq, if_true, if_false]
      · intro h
        have h1 := h t (by norm_num) le_rfl
        simp only [benchPot, String.reduceEq, if_true, if_false] at h1
        norm_num at h1
    · intro t
      constructor
      · intro h
        have h1 := h t (by norm_num) le_rfl
        simp only [benchPot, String.reduceEq, if_false] at h1
        norm_num at h1
      · intro _
        simp only [benchPot, String.reduceEq, if_true, if_false]
  · intro k hk
    have hk' : k < 5 := hk
    funext t
    interval_cases k <;> simp [clockedDef, comparatorPins, benchPot, comparatorAt, loopEx]

/-- The simulation of the same loop: period one, a delay of 1/500, an input of one. -/
noncomputable def benchCfg : Cfg loopEx.M :=
  ⟨loopEx, ⟨1, 0, 1 / 500, fun _ => stepResponse 0, fun _ => 0⟩, fun _ _ _ => 1, true⟩

/-- The simulator starts with no control at all, so that the state grows until the first decision arrives. -/
noncomputable def benchSt : ℕ → St loopEx.M
  | 0 => ⟨0, 1 / 8, fun _ => 1, State.init⟩
  | k + 1 => ⟨k + 1, k + 1 + 1 / 8, fun _ => 1 + 1 / 500, ⟨fun _ => 1, fun _ => 1, fun _ => if k = 0 then 0 else 1⟩⟩

/-- The trajectory in the periods. -/
noncomputable def benchPhi (k : ℕ) (τ : ℝ) (_ : ℕ) : ℝ := if k = 0 then 1 + min τ (1 / 500) else 1 + 1 / 500

theorem bench_obs (k : ℕ) (w : Fin 1 → ℝ) :
    ∃ y, loopEx.controlObservation ⟨loopEx.N, (benchSt k).x⟩ (some (benchCfg.u0 (benchSt k))) (some (asVec w)) = .ok y ∧
      y.len = 1 ∧ 1 ≤ y.v 0 := by
  obtain ⟨y, h1, h2, h3⟩ := (C27_observation_partial loopEx _ rfl ⟨1, (benchSt k).x⟩ (benchCfg.u0 (benchSt k)) (asVec w)
    rfl rfl rfl).1
  refine ⟨y, h1, h2, ?_⟩
  rw [h3]
  cases k <;> simp [loopEx, benchSt]

theorem bench_run : Run benchCfg benchSt benchPhi := by
  intro k
  refine Period.of_sol rfl (fun _ _ => -1) rfl rfl ?_ ⟨?_, ?_⟩ ?_ ?_ ?_ ?_
  · rw [decide_ok]
    obtain ⟨y, h1, h2, h3⟩ := bench_obs k (contribution benchCfg.dc (benchSt k).c 0)
    refine ⟨y, h1, h2.ge, ?_⟩
    have hup : ∀ m : Fin loopEx.M, (update benchCfg.dc (benchSt k).c 0 fun m => y.v m).s m = 1 ∧
        (update benchCfg.dc (benchSt k).c 0 fun m => y.v m).old m = (benchSt k).c.cur m ∧
        (update benchCfg.dc (benchSt k).c 0 fun m => y.v m).cur m = 2 * 1 - 1 := by
      intro m
      have hm : (m : ℕ) = 0 := by
        have : (m : ℕ) < 1 := m.2
        omega
      have := update_plain benchCfg.dc (fun _ => rfl) (fun _ => rfl) le_rfl (benchSt k).c (fun m => y.v m) m
      have e : (if (0 : ℝ) ≤ y.v m then (1 : ℝ) else 0) = 1 := by rw [hm, if_pos (zero_le_one.trans h3)]
      rw [e] at this
      exact this
    have e1 : (update benchCfg.dc (benchSt k).c 0 fun m => y.v m).s = (benchSt (k + 1)).c.s := funext fun m => (hup m).1
    have e2 : (update benchCfg.dc (benchSt k).c 0 fun m => y.v m).cur = (benchSt (k + 1)).c.cur := by
      funext m
      refine (hup m).2.2.trans ?_
      show (2 : ℝ) * 1 - 1 = 1
      norm_num
    have e3 : (update benchCfg.dc (benchSt k).c 0 fun m => y.v m).old = (benchSt (k + 1)).c.old := by
      funext m
      refine (hup m).2.1.trans ?_
      cases k with
      | zero => rfl
      | succ k =>
        show (1 : ℝ) = if k + 1 = 0 then 0 else 1
        rw [if_neg (Nat.succ_ne_zero k)]
    cases h1 : update benchCfg.dc (benchSt k).c 0 fun m => y.v m
    rw [h1] at e1 e2 e3
    dsimp only at e1 e2 e3
    rw [e1, e2, e3]
  · intro n _
    unfold benchPhi
    split_ifs
    · exact (continuous_const.add (continuous_id.min continuous_const)).continuousOn
    · exact continuousOn_const
  · intro τ hτ n _
    have hw : contribution benchCfg.dc (benchSt (k + 1)).c τ = fun _ => if τ < 1 / 500 ∧ k = 0 then 0 else 1 := by
      funext m
      rw [contribution_plain benchCfg.dc (fun _ => rfl) _ _ hτ.1]
      show (if τ < 1 / 500 then (if k = 0 then (0 : ℝ) else 1) else 1) = _
      by_cases h1 : τ < 1 / 500
      · simp only [h1, true_and, if_true]
      · simp only [h1, false_and, if_false]
    rw [hw]
    have hr : dot benchCfg.sys.N benchCfg.sys.A (benchPhi k τ) n +
        (dot benchCfg.sys.L benchCfg.sys.B (benchCfg.input ((benchSt k).ticks + 1) (τ + (benchSt k).t)) n +
        dot benchCfg.sys.M (fun _ _ => -1) (asVec fun _ : Fin 1 => if τ < 1 / 500 ∧ k = 0 then (0 : ℝ) else 1).v n) =
        if τ < 1 / 500 ∧ k = 0 then 1 else 0 := by
      by_cases h : τ < 1 / 500 ∧ k = 0
      · simp only [if_pos h]
        simp [dot, benchCfg, loopEx, asVec]
      · simp only [if_neg h]
        simp [dot, benchCfg, loopEx, asVec]
    refine HasDerivWithinAt.congr_deriv ?_ hr.symm
    unfold benchPhi
    by_cases hk : k = 0
    · by_cases h1 : τ < 1 / 500
      · simp only [hk, h1, if_true, and_true]
        have hd : HasDerivAt (fun τ : ℝ => 1 + min τ (1 / 500)) 1 τ := by
          have : HasDerivAt (fun τ : ℝ => 1 + τ) 1 τ := (hasDerivAt_id τ).const_add 1
          refine this.congr_of_eventuallyEq ?_
          filter_upwards [gt_mem_nhds h1] with s hs
          show 1 + min s (1 / 500) = 1 + s
          rw [min_eq_left hs.le]
        exact hd.hasDerivWithinAt
      · simp only [hk, h1, if_true, and_true, if_false]
        refine (hasDerivWithinAt_const τ (Ici τ) (1 + 1 / 500 : ℝ)).congr ?_ ?_
        · intro s hs
          show 1 + min s (1 / 500) = 1 + 1 / 500
          rw [min_eq_right ((not_lt.mp h1).trans hs)]
        · show 1 + min τ (1 / 500) = 1 + 1 / 500
          rw [min_eq_right (not_lt.mp h1)]
    · simp only [hk, and_false, if_false]
      exact hasDerivWithinAt_const τ (Ici τ) (1 + 1 / 500 : ℝ)
  · intro n _
    cases k <;> norm_num [benchPhi, benchSt]
  · intro n _
    cases k <;> norm_num [benchPhi, benchSt, benchCfg]
  · cases k <;> rfl
  · cases k with
    | zero => norm_num [benchSt, benchCfg]
    | succ k =>
      simp only [benchSt, benchCfg]
      push_cast
      ring

theorem bench_clear : Clear loopEx (benchTiming 1 2) benchCfg benchSt 1 (deviation 0 1 1 (1 / 100) (1 / 250)) 2 := by
  intro k hk y hy m hm
  obtain rfl : m = 0 := by
    have : m < 1 := hm
    omega
  obtain ⟨y', h1, -, h3⟩ := bench_obs k (contribution benchCfg.dc (benchSt k).c 0)
  obtain rfl : y = y' := Except.ok.inj (hy.symm.trans h1)
  have h4 : 1 ≤ |y.v 0| := h3.trans (le_abs_self _)
  interval_cases k <;> norm_num [deviation, benchTiming] <;> linarith

/-- Potentials of the circuit around the common mode, with the supply. -/
noncomputable def benchV (a : String) (t : ℝ) : ℝ :=
  if a = "0" then 0 else if a = "VDD" then 2
  else clockedPot (fun _ _ => 2) (fun _ _ => 2) (fun _ _ => 2) benchClock a t + 1

theorem benchV_signal (q : Circuit.Signal) (t : ℝ) :
    benchV q.name t = q.half (fun _ _ => 2) (fun _ _ => 2) (fun _ _ => 2) t + 1 := by
  unfold benchV
  rw [if_neg, if_neg, clockedPot_signal]
  · rcases q with ⟨q, m⟩ | ⟨q, m⟩ | ⟨q, m⟩ <;> cases q <;> simp only [Circuit.Signal.name, sfx] <;> intro h <;> names at h
  · rcases q with ⟨q, m⟩ | ⟨q, m⟩ | ⟨q, m⟩ <;> cases q <;> simp only [Circuit.Signal.name, sfx] <;> intro h <;> names at h

/-- The sources of the test bench, with a constant input. -/
theorem bench_sources : ∃ lines, sourceLines (fun _ _ => "x") [.sinusoidal 0 1 0 1] loopEx.M 1 (1 / 4) 2 = .ok lines ∧
    Holds lines benchV := by
  obtain ⟨lines, -, h, -⟩ := TestBench.C114_solvable (fun _ _ => "x") 1 1 (1 / 4) 2 [(0, 1, 0, 1)]
  refine ⟨lines, h, fun t => if_pos rfl, ?_⟩
  obtain ⟨waves, hw, hm⟩ := TestBench.lines_mem _ _ _ _ _ _ _ h
  obtain rfl : waves = [.sin 1 (0 / 2) 1 0 0 0] := (Except.ok.inj hw).symm
  have hvcm : ∀ t, benchV "VCM" t = 1 := by
    intro t
    unfold benchV
    rw [if_neg (by decide), if_neg (by decide), clockedPot_vcm]
    exact zero_add 1
  intro l hl t ht
  rcases (hm l).mp hl with (rfl | rfl | rfl) | ⟨j, w, hj, hl⟩
  · show benchV "VDD" t - benchV "VCM" t = 2 / 2
    rw [hvcm]
    simp only [benchV, String.reduceEq, if_true, if_false]
    norm_num
  · show benchV "VCM" t - benchV "0" t = 2 / 2
    rw [hvcm]
    norm_num [benchV]
  · show benchV "CLK" t - benchV "0" t = value (pulseWave 0 2 1 (1 / 4) (1 / 4)) t
    simp [benchV, clockedPot, benchClock]
  · cases j with
    | succ j => cases hj
    | zero =>
      cases hj
      have hval : value (.sin 1 (0 / 2) 1 0 0 0) t = 1 := by
        simp [value, not_lt.mpr ht]
      rcases hl with rfl | rfl
      · show benchV (fmt "IN" 0 "_P") t - benchV "VCM" t = _
        rw [hvcm, hval]
        have := benchV_signal (.u true 0) t
        simp only [Circuit.Signal.name, sfx, if_true, Circuit.Signal.half] at this
        rw [this]
        norm_num
      · show benchV "VCM" t - benchV (fmt "IN" 0 "_N") t = _
        rw [hvcm, hval]
        have := benchV_signal (.u false 0) t
        simp only [Circuit.Signal.name, sfx, Bool.false_eq_true, if_false, Circuit.Signal.half] at this
        rw [this]
        norm_num

theorem bench_bench (sol : Circuit.Spec.Sol) (hv : sol.v = fun a t =>
      clockedPot (fun _ _ => 2) (fun _ _ => 2) (fun _ _ => 2) benchClock a t + 1) :
    Bench loopEx [.sinusoidal 0 1 0 1] 1 (1 / 4) 2 benchV sol benchCfg benchSt := by
  have e1 : ∀ s m t, sol.v (fmt "IN" m s) t = benchV (fmt "IN" m s) t ∧
      sol.v (fmt "OUT" m s) t = benchV (fmt "OUT" m s) t := by
    intro s m t
    rw [hv]
    unfold benchV
    rw [if_neg, if_neg, if_neg, if_neg]
    · exact ⟨rfl, rfl⟩
    all_goals intro h; names at h
  have e2 : ∀ m t, benchV (fmt "OUT" m "_P") t = 2 := by
    intro m t
    have := benchV_signal (.s true m) t
    simp only [Circuit.Signal.name, sfx, if_true, Circuit.Signal.half] at this
    rw [this]
    norm_num
  have e3 : ∀ m t, benchV (fmt "OUT" m "_N") t = 0 := by
    intro m t
    have := benchV_signal (.s false m) t
    simp only [Circuit.Signal.name, sfx, Bool.false_eq_true, if_false, Circuit.Signal.half] at this
    rw [this]
    norm_num
  refine ⟨rfl, rfl, rfl, fun _ => rfl, fun _ => rfl, le_rfl, rfl, ?_, ?_, ?_, ?_, ?_, ?_, ?_, ?_⟩
  · norm_num [benchCfg]
  · norm_num [benchSt]
  · intro m
    simp [benchSt, State.init]
  · intro l hl
    obtain rfl : l = 0 := by
      have : l < 1 := hl
      omega
    refine ⟨0, 1, 0, 1, rfl, fun k t _ => ?_⟩
    norm_num [benchCfg]
  · intro t _
    rw [hv]
    simp [benchV]
  · intro l _ t _
    exact ⟨(e1 _ _ _).1, (e1 _ _ _).1⟩
  · intro m _ t _
    exact ⟨(e1 _ _ _).2, (e1 _ _ _).2⟩
  · intro m _ t _
    rw [e2, e3]
    norm_num

/-- What is recorded four times per period. -/
noncomputable def benchRaw (v : String → ℝ → ℝ) (n : ℕ) : Raw :=
  ⟨n, fun i => v "CLK" (i * (1 / 4)), fun i m => v (fmt "OUT" m "_P") (i * (1 / 4))⟩

theorem bench_recorded (v : String → ℝ → ℝ) : Recorded v 1 3 (benchRaw v 13) fun i => i * (1 / 4) := by
  have h := TestBench.quarter_recorded v 1 1 3 one_pos 12 (by norm_num)
  exact ⟨h.some, h.start, h.mono, h.gap, h.last, fun _ _ => rfl⟩

theorem bench_starts (sol : Circuit.Spec.Sol) (hv : sol.v = fun a t =>
      clockedPot (fun _ _ => 2) (fun _ _ => 2) (fun _ _ => 2) benchClock a t + 1) :
    Starts loopEx (benchTiming 1 2) sol benchCfg benchSt 1 (1 / 250) := by
  refine ⟨0, le_rfl, ?_, Or.inr ?_⟩
  · intro n _
    unfold diff
    rw [hv]
    have := clockedPot_x (fun _ _ => 2) (fun _ _ => 2) (fun _ _ => 2) benchClock n (benchSt 0).t
    rw [add_sub_add_right_eq_sub, this]
    norm_num [benchTiming, benchSt]
  · norm_num [benchCfg]

/-- The hypotheses of `C171_opamp_partial` are met: state, input and control of the circuit are constant at two volts,
which is one in units of the supply.  The simulator starts without a control.  The vectors of three periods are
read. -/
example : ∃ (sol : Circuit.Spec.Sol) (lines : List TestBench.SourceLine),
    sourceLines (fun _ _ => "x") [.sinusoidal 0 1 0 1] loopEx.M 1 (1 / 4) 2 = .ok lines ∧ Holds lines benchV ∧
    Bench loopEx [.sinusoidal 0 1 0 1] 1 (1 / 4) 2 benchV sol benchCfg benchSt ∧
    ∀ k < 2, ∃ vec, call (Sim.next (size 3 1) (2 / 2) (benchRaw benchV 13)) .new (k + 1) = .ok vec ∧ vec 0 = 1 := by
  obtain ⟨lines, hlines, hv⟩ := bench_sources
  obtain ⟨f, c, ds, hf, hc, law, sol, hop, hl, hpot⟩ := loop_realisable_mid (fun _ _ => "x") loopEx 1 (2 / 2)
    (fun _ _ => -1) (fun _ _ => 1) rfl rfl rfl _ _ _ loop_state benchClock _ benchEx_comparator
  obtain ⟨f', c', ds', D, hf', hc', hD, h⟩ := C171_opamp_partial (fun _ _ => "x") loopEx 1 one_ne_zero (fun _ _ => -1)
    (fun _ _ => 1) rfl rfl rfl (fun _ _ _ _ => rfl) _ 1 (1 / 4) 2 lines hlines (by norm_num) (by norm_num) (by norm_num)
  rw [hf] at hf'
  cases hf'
  rw [hc] at hc'
  cases hc'
  obtain rfl : D = clockedDef := Except.ok.inj (hD.symm.trans (clocked_def _))
  rw [div_self two_ne_zero] at hpot
  have hb := bench_bench sol hpot
  have ht : raisedTiming (2 / 2) ⟨0, 0, 1 / 1000, 1 / 1000, 1 / 100, -1, 1⟩ = benchTiming 1 2 := by
    norm_num [raisedTiming, benchTiming]
  rw [ht] at hl
  refine ⟨sol, lines, hlines, hv, hb, ?_⟩
  have := (h law sol benchV benchCfg benchSt benchPhi 0 1 1 (1 / 250) 2 3 (benchRaw benchV 13) _ hop hl hv hb bench_run
    le_rfl (fun _ _ => by simp [loopEx]) zero_le_one (fun _ _ => by simp [loopEx]) (fun _ _ => by simp [loopEx])
    (bench_starts sol hpot) bench_clear (bench_recorded benchV) (fun _ _ _ _ => rfl)).2
  intro k hk
  obtain ⟨vec, h1, h2⟩ := this k hk (by rw [Nat.lt_ceil]; interval_cases k <;> norm_num)
  exact ⟨vec, h1, h2 ⟨0, Nat.one_pos⟩⟩

/-- The hypotheses of `C171_gmc_partial` are met in the same way. -/
example : ∃ (sol : Circuit.Spec.Sol) (lines : List TestBench.SourceLine),
    sourceLines (fun _ _ => "x") [.sinusoidal 0 1 0 1] loopEx.M 1 (1 / 4) 2 = .ok lines ∧ Holds lines benchV ∧
    Bench loopEx [.sinusoidal 0 1 0 1] 1 (1 / 4) 2 benchV sol benchCfg benchSt ∧
    ∀ k < 2, ∃ vec, call (Sim.next (size 3 1) (2 / 2) (benchRaw benchV 13)) .new (k + 1) = .ok vec ∧ vec 0 = 1 := by
  obtain ⟨lines, hlines, hv⟩ := bench_sources
  obtain ⟨f, os, c, ds, hf, hc, law, sol, hop, hl, hpot⟩ := loop_realisable_gmc_mid (fun _ _ => "x") loopEx 1 (2 / 2)
    (fun _ _ => -1) (fun _ _ => 1) rfl rfl rfl _ _ _ loop_state benchClock _ benchEx_comparator
  obtain ⟨f', os', c', ds', D, hf', hc', hD, h⟩ := C171_gmc_partial (fun _ _ => "x") loopEx 1 one_ne_zero (fun _ _ => -1)
    (fun _ _ => 1) rfl rfl rfl (fun _ _ _ _ => rfl) _ 1 (1 / 4) 2 lines hlines (by norm_num) (by norm_num) (by norm_num)
  rw [hf] at hf'
  cases hf'
  rw [hc] at hc'
  cases hc'
  obtain rfl : D = clockedDef := Except.ok.inj (hD.symm.trans (clocked_def _))
  rw [div_self two_ne_zero] at hpot
  have hb := bench_bench sol hpot
  have ht : raisedTiming (2 / 2) ⟨0, 0, 1 / 1000, 1 / 1000, 1 / 100, -1, 1⟩ = benchTiming 1 2 := by
    norm_num [raisedTiming, benchTiming]
  rw [ht] at hl
  refine ⟨sol, lines, hlines, hv, hb, ?_⟩
  have := (h law sol benchV benchCfg benchSt benchPhi 0 1 1 (1 / 250) 2 3 (benchRaw benchV 13) _ hop hl hv hb bench_run
    le_rfl (fun _ _ => by simp [loopEx]) zero_le_one (fun _ _ => by simp [loopEx]) (fun _ _ => by simp [loopEx])
    (bench_starts sol hpot) bench_clear (bench_recorded benchV) (fun _ _ _ _ => rfl)).2
  intro k hk
  obtain ⟨vec, h1, h2⟩ := this k hk (by rw [Nat.lt_ceil]; interval_cases k <;> norm_num)
  exact ⟨vec, h1, h2 ⟨0, Nat.one_pos⟩⟩

/-- With a supply of two volts and the user's own sinusoid given to both, `C171_signals_false` applies. -/
example (v : String → ℝ → ℝ) (sol : Circuit.Spec.Sol) (st : ℕ → St loopEx.M) :
    ¬ Bench loopEx [.sinusoidal 1 1 0 0] 1 (1 / 4) 2 v sol
      ⟨loopEx, ⟨1, 0, 1 / 500, fun _ => stepResponse 0, fun _ => 0⟩, fun _ t _ => wanted 1 1 0 0 t, true⟩ st :=
  C171_signals_false loopEx rfl 1 1 1 (1 / 4) 2 one_ne_zero one_ne_zero (by norm_num) v sol _ st fun _ _ => rfl

end Cbadc.ClosedLoop
