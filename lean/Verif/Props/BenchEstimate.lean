import Verif.Props.BenchLoop
import Verif.Props.Estimator

/-!
# C172: estimates from a circuit simulation and from the package's own simulation

The control vectors of C171, given to the digital estimators.
-/

namespace Cbadc.ClosedLoop
open Cbadc.Analog Cbadc.Control Cbadc.Simulate Cbadc.Circuit Cbadc.Circuit.Spec Cbadc.NgSpice
open Cbadc.Streams Cbadc.Estimator
open Cbadc.TestBench (sourceLines Recorded)
open Cbadc.TestBench.Spec (Holds)

/-- What an estimator gets at its `k`-th read from an iterator over the circuit simulation
(`src/cbadc/circuit/simulator.py:245-256`, read in `src/cbadc/digital_estimator/fir_estimator.py:234-235` and
`src/cbadc/digital_estimator/iir_estimator.py:181-187`): the row of the array, of which the entries of the controls
are used. -/
noncomputable def circuitSource (M sz : ℕ) (vcm : ℝ) (raw : Raw) : ℕ → Res (Fin M → ℝ) := fun k =>
  (call (Sim.next sz vcm raw) .new k).map fun vec m => vec m

/-- What an estimator gets at its `k`-th read from the package's own simulation: the decision at the beginning
of the `k`-th period of `FullSimulator` (`src/cbadc/simulator/numerical_simulator.py:85-88`), see `Simulate.Run`. -/
def ownSource {M : ℕ} (st : ℕ → St M) : ℕ → Res (Fin M → ℝ) := fun k => .ok (signal (st (k + 1)).c)

section
variable {M L N : ℕ}

/-- Two sources, of which one is late by one vector: FIR estimates agree when the window is filled. -/
theorem late_fir (f : FIR ℝ M L) (hds : f.ds = 1) (hlim : f.limit = 0) (hw : 1 ≤ f.K1 + f.K2)
    (src src' : ℕ → Res (Fin M → ℝ)) (s s' : ℕ → Fin M → ℝ) (n : ℕ) (hs : ∀ k ≤ n, src k = .ok (s k))
    (hs' : ∀ k ≤ n + 1, src' k = .ok (s' k)) (hlate : ∀ k ≤ n, s' (k + 1) = s k) (hn : f.K1 + f.K2 ≤ n + 1) :
    ∃ y, call (f.next src') FIRState.init (n + 1) = .ok y ∧ call (f.next src) FIRState.init n = .ok y := by
  obtain ⟨h, y, hy⟩ := C39_window f (by omega) hlim FIRState.init FIRState.init src' src s' s (n + 1) n
    (fun j hj => by
      rw [hds, one_mul] at hj
      simp only [FIRState.init, Nat.zero_add]
      exact hs' j (by omega))
    (fun j hj => by
      rw [hds, one_mul] at hj
      simp only [FIRState.init, Nat.zero_add]
      exact hs j (by omega))
    (by rw [hds]; omega) (by rw [hds]; omega)
    (fun k hk => by
      simp only [FIRState.init, Nat.zero_add, hds, one_mul]
      rw [show n + 1 + 1 + k - (f.K1 + f.K2) = (n + 1 + k - (f.K1 + f.K2)) + 1 by omega]
      exact hlate _ (by omega))
  exact ⟨y, hy, h ▸ hy⟩

/-- Two sources, of which one is late by one vector: what is different in the IIR estimates is what is left of the
additional vector. -/
theorem late_iir (c : Coeffs ℝ N M L) (K2 : ℕ) (eta2 : ℝ) (f : IIR ℝ N M L) (hf : IIR.new c K2 eta2 1 0 = .ok f)
    (hK2 : 1 ≤ K2) (src src' : ℕ → Res (Fin M → ℝ)) (s s' : ℕ → Fin M → ℝ) (n : ℕ)
    (hs : ∀ k ≤ n, src k = .ok (s k)) (hs' : ∀ k ≤ n + 1, src' k = .ok (s' k)) (hlate : ∀ k ≤ n, s' (k + 1) = s k)
    (hn : K2 ≤ n + 1) :
    ∃ y, call (f.next src) IIRState.init n = .ok y ∧ call (f.next src') IIRState.init (n + 1) =
      .ok (y - Matrix.mulVec (c.WT * (c.Af ^ (n + 1 - K2) * c.Bf)) (fun m => 2 * s' 0 m - 1)) := by
  obtain ⟨k, rfl⟩ : ∃ k, n = k + K2 - 1 := ⟨n + 1 - K2, by omega⟩
  refine ⟨_, C33_iir_estimate c K2 eta2 1 0 f hf hK2 le_rfl src s (k + K2 - 1) k (by push_cast; omega) (Or.inl rfl)
    (fun j hj => hs j (by omega)), ?_⟩
  rw [C33_iir_estimate c K2 eta2 1 0 f hf hK2 le_rfl src' s' (k + K2 - 1 + 1) (k + 1) (by push_cast; omega) (Or.inl rfl)
    (fun j hj => hs' j (by omega))]
  have e1 : ((1 * (k + K2 - 1 + 1) : ℕ) : ℤ) + 1 - (K2 : ℤ) = (k : ℤ) + 1 := by omega
  have e2 : ((1 * (k + K2 - 1) : ℕ) : ℤ) + 1 - (K2 : ℤ) = (k : ℤ) := by omega
  rw [e1, e2, show k + K2 - 1 + 1 - K2 = k by omega, sub_sub]
  have hext : ∀ j : ℤ, 0 ≤ j → j ≤ (k + K2 - 1 : ℕ) → Spec.ext s' (j + 1) = Spec.ext s j := by
    intro j h0 h1
    unfold Spec.ext
    rw [if_pos h0, if_pos (by omega), show (j + 1).toNat = j.toNat + 1 by omega, hlate _ (by omega)]
  congr 2
  · unfold Spec.future
    refine Finset.sum_congr rfl fun i hi => ?_
    rw [show (k : ℤ) + 1 + i = ((k : ℤ) + i) + 1 by ring, hext _ (by omega) (by
      have := Finset.mem_range.mp hi
      omega)]
  · unfold Spec.past
    rw [Finset.sum_range_succ]
    congr 1
    · refine Finset.sum_congr rfl fun i hi => ?_
      have := Finset.mem_range.mp hi
      rw [show (k : ℤ) + 1 - 1 - i = ((k : ℤ) - 1 - i) + 1 by ring, hext _ (by omega) (by omega)]
    · congr 1
      rw [show (k : ℤ) + 1 - 1 - k = 0 by ring]
      funext m
      simp [Spec.ext]

end

/-- What the estimators make of the two simulations, up to the vector `K` of the package's own: FIR estimates from the
circuit are those of the package's own simulation one call earlier, as soon as all taps have their vectors; IIR
estimates are different by what is left of the first vector from the circuit. -/
def SameEstimates {M : ℕ} (circuit own : ℕ → Res (Fin M → ℝ)) (K : ℕ) : Prop :=
  (∀ (L : ℕ) (f : FIR ℝ M L), f.ds = 1 → f.limit = 0 → 1 ≤ f.K1 + f.K2 → ∀ n < K, f.K1 + f.K2 ≤ n + 1 →
    ∃ y, call (f.next circuit) FIRState.init (n + 1) = .ok y ∧ call (f.next own) FIRState.init n = .ok y) ∧
  ∃ first, circuit 0 = .ok first ∧ ∀ (N L : ℕ) (c : Coeffs ℝ N M L) (K2 : ℕ) (eta2 : ℝ) (f : IIR ℝ N M L),
    IIR.new c K2 eta2 1 0 = .ok f → 1 ≤ K2 → ∀ n < K, K2 ≤ n + 1 →
    ∃ y, call (f.next own) IIRState.init n = .ok y ∧ call (f.next circuit) IIRState.init (n + 1) =
      .ok (y - Matrix.mulVec (c.WT * (c.Af ^ (n + 1 - K2) * c.Bf)) (fun m => 2 * first m - 1))

/-- From the control vectors to the estimates. -/
theorem same_estimates {M : ℕ} (sz : ℕ) (vcm : ℝ) (raw : Raw) (st : ℕ → St M) (K : ℕ)
    (h0 : ∃ vec, call (Sim.next sz vcm raw) .new 0 = .ok vec)
    (h : ∀ k < K, ∃ vec, call (Sim.next sz vcm raw) .new (k + 1) = .ok vec ∧ ∀ m : Fin M, vec m = signal (st (k + 1)).c m) :
    SameEstimates (circuitSource M sz vcm raw) (ownSource st) K := by
  obtain ⟨vec, hvec⟩ := h0
  have e0 : circuitSource M sz vcm raw 0 = .ok fun m => vec m := by
    unfold circuitSource
    rw [hvec]
    rfl
  have e1 : ∀ k < K, circuitSource M sz vcm raw (k + 1) = .ok (signal (st (k + 1)).c) := by
    intro k hk
    obtain ⟨w, h1, h2⟩ := h k hk
    unfold circuitSource
    rw [h1]
    exact congrArg Except.ok (funext h2)
  let s' : ℕ → Fin M → ℝ := fun k => if k = 0 then fun m => vec m else signal (st k).c
  have hs' : ∀ k ≤ K, circuitSource M sz vcm raw k = .ok (s' k) := by
    intro k hk
    cases k with
    | zero => exact e0
    | succ k => exact e1 k (by omega)
  refine ⟨fun L f hds hlim hw n hn hwin => ?_, _, e0, fun N L c K2 eta2 f hf hK2 n hn hwin => ?_⟩
  · exact late_fir f hds hlim hw _ _ (fun k => signal (st (k + 1)).c) s' n (fun k _ => rfl)
      (fun k hk => hs' k (by omega)) (fun k _ => rfl) hwin
  · exact late_iir c K2 eta2 f hf hK2 _ _ (fun k => signal (st (k + 1)).c) s' n (fun k _ => rfl)
      (fun k hk => hs' k (by omega)) (fun k _ => rfl) hwin

/-- **C172.**  Estimates from an ngspice simulation of a test bench with an op-amp frontend are those from the
package's own simulation of the same system, one call late, under the conditions of C171. -/
theorem C172_opamp_partial (ids : String → ℕ → String) (S : Sys ℝ) (C : ℝ) (hC : C ≠ 0) (G GT : ℕ → ℕ → ℝ)
    (hG : S.Gamma = some G) (hGT : S.GammaT = some GT) (hM : S.M = S.Mt)
    (hAt : ∀ i < S.Mt, ∀ m < S.M, S.At i m = 0) (inputs : List TestBench.Signal) (T tt vdd : ℝ)
    (lines : List TestBench.SourceLine) (hlines : sourceLines ids inputs S.M T tt vdd = .ok lines) (htt : 0 < tt)
    (hT : 2 * tt ≤ T) (hvdd : 0 < vdd) :
    ∃ s c ds D, opampFrontend ids S C = .ok s ∧ digitalControl ids S 0 (vdd / 2) = .ok (c, ds) ∧
      clockedComparator ids = .ok D ∧
      ∀ (law : Law) (sol : Circuit.Spec.Sol) (v : String → ℝ → ℝ) (cfg : Cfg S.M) (st : ℕ → St S.M)
        (φ : ℕ → ℝ → ℕ → ℝ) (a g h E : ℝ) (K : ℕ) (tEnd : ℝ) (raw : Raw) (time : ℕ → ℝ),
        (∀ v i, law "opamp" v i → IdealOpamp v i) →
        Loop law sol (benchTiming T vdd) (vdd / 2) (s.netlist (Obj.name ids)) (grounds S.N)
          (c.definition ids (controlPins S.N S.L S.M)) ds D →
        Holds lines v → Bench S inputs T tt vdd v sol cfg st → Run cfg st φ →
        0 ≤ a → (∀ n < S.N, ∑ j ∈ Finset.range S.N, |S.A n j| ≤ a) →
        0 ≤ g → (∀ n < S.N, ∑ m ∈ Finset.range S.M, |G n m| ≤ g) →
        (∀ m < S.M, ∑ n ∈ Finset.range S.N, |GT m n| ≤ h) →
        Starts S (benchTiming T vdd) sol cfg st g E →
        Clear S (benchTiming T vdd) cfg st h (deviation a T g (T / 100) E) K →
        Recorded v T tEnd raw time → (∀ i < raw.n, ∀ m < S.M, raw.v i m = v (fmt "OUT" m "_P") (time i)) →
        0 < tEnd →
        SameEstimates (circuitSource S.M (size tEnd T) (vdd / 2) raw) (ownSource st) (min K (⌈tEnd / T⌉₊ - 1)) := by
  obtain ⟨s, c, ds, D, hs, hc, hD, hf⟩ := C171_opamp_partial ids S C hC G GT hG hGT hM hAt inputs T tt vdd lines hlines htt
    hT hvdd
  refine ⟨s, c, ds, D, hs, hc, hD, ?_⟩
  intro law sol v cfg st φ a g h E K tEnd raw time hop hl hv b hrun ha hA hg hGg hGTh hst hcl hrec hout hend
  obtain ⟨-, hvec⟩ := hf law sol v cfg st φ a g h E K tEnd raw time hop hl hv b hrun ha hA hg hGg hGTh hst hcl hrec hout
  obtain ⟨vec, h0, -⟩ := (TestBench.C115_partial ids inputs S.M T tt vdd lines hlines v hv htt hT hvdd tEnd raw time
    hrec).1 hend
  exact same_estimates _ _ _ _ _ ⟨vec, h0⟩ fun k hk => hvec k (by omega) (by omega)

/-- The same for the test bench with a Gm-C frontend of ideal transconductors. -/
theorem C172_gmc_partial (ids : String → ℕ → String) (S : Sys ℝ) (C : ℝ) (hC : C ≠ 0) (G GT : ℕ → ℕ → ℝ)
    (hG : S.Gamma = some G) (hGT : S.GammaT = some GT) (hM : S.M = S.Mt)
    (hAt : ∀ i < S.Mt, ∀ m < S.M, S.At i m = 0) (inputs : List TestBench.Signal) (T tt vdd : ℝ)
    (lines : List TestBench.SourceLine) (hlines : sourceLines ids inputs S.M T tt vdd = .ok lines) (htt : 0 < tt)
    (hT : 2 * tt ≤ T) (hvdd : 0 < vdd) :
    ∃ s ots c ds D, gmcFrontend ids S C none = .ok (s, ots) ∧ digitalControl ids S 0 (vdd / 2) = .ok (c, ds) ∧
      clockedComparator ids = .ok D ∧
      ∀ (law : Law) (sol : Circuit.Spec.Sol) (v : String → ℝ → ℝ) (cfg : Cfg S.M) (st : ℕ → St S.M)
        (φ : ℕ → ℝ → ℕ → ℝ) (a g h E : ℝ) (K : ℕ) (tEnd : ℝ) (raw : Raw) (time : ℕ → ℝ),
        (∀ n (h : n < ots.length), ∀ v i, law (fmt "multi_input_ota_" n "") v i → ObeysDef law ots[n] v i) →
        Loop law sol (benchTiming T vdd) (vdd / 2) (s.netlist (Obj.name ids))
          ((List.range S.N).flatMap fun n => [fmt "X" n "_P", fmt "X" n "_N"])
          (c.definition ids (controlPins S.N S.L S.M)) ds D →
        Holds lines v → Bench S inputs T tt vdd v sol cfg st → Run cfg st φ →
        0 ≤ a → (∀ n < S.N, ∑ j ∈ Finset.range S.N, |S.A n j| ≤ a) →
        0 ≤ g → (∀ n < S.N, ∑ m ∈ Finset.range S.M, |G n m| ≤ g) →
        (∀ m < S.M, ∑ n ∈ Finset.range S.N, |GT m n| ≤ h) →
        Starts S (benchTiming T vdd) sol cfg st g E →
        Clear S (benchTiming T vdd) cfg st h (deviation a T g (T / 100) E) K →
        Recorded v T tEnd raw time → (∀ i < raw.n, ∀ m < S.M, raw.v i m = v (fmt "OUT" m "_P") (time i)) →
        0 < tEnd →
        SameEstimates (circuitSource S.M (size tEnd T) (vdd / 2) raw) (ownSource st) (min K (⌈tEnd / T⌉₊ - 1)) := by
  obtain ⟨s, ots, c, ds, D, hs, hc, hD, hf⟩ := C171_gmc_partial ids S C hC G GT hG hGT hM hAt inputs T tt vdd lines hlines
    htt hT hvdd
  refine ⟨s, ots, c, ds, D, hs, hc, hD, ?_⟩
  intro law sol v cfg st φ a g h E K tEnd raw time hop hl hv b hrun ha hA hg hGg hGTh hst hcl hrec hout hend
  obtain ⟨-, hvec⟩ := hf law sol v cfg st φ a g h E K tEnd raw time hop hl hv b hrun ha hA hg hGg hGTh hst hcl hrec hout
  obtain ⟨vec, h0, -⟩ := (TestBench.C115_partial ids inputs S.M T tt vdd lines hlines v hv htt hT hvdd tEnd raw time
    hrec).1 hend
  exact same_estimates _ _ _ _ _ ⟨vec, h0⟩ fun k hk => hvec k (by omega) (by omega)

/-! ## Before the window is filled, and a case -/

/-- The circuit of the example in `BenchLoop` meets the conditions. -/
theorem bench_same : ∃ (sol : Circuit.Spec.Sol) (lines : List TestBench.SourceLine),
    sourceLines (fun _ _ => "x") [.sinusoidal 0 1 0 1] loopEx.M 1 (1 / 4) 2 = .ok lines ∧ Holds lines benchV ∧
    Bench loopEx [.sinusoidal 0 1 0 1] 1 (1 / 4) 2 benchV sol benchCfg benchSt ∧
    SameEstimates (circuitSource loopEx.M (size 3 1) (2 / 2) (benchRaw benchV 13)) (ownSource benchSt) 2 := by
  obtain ⟨lines, hlines, hv⟩ := bench_sources
  obtain ⟨f, c, ds, hf, hc, law, sol, hop, hl, hpot⟩ := loop_realisable_mid (fun _ _ => "x") loopEx 1 (2 / 2)
    (fun _ _ => -1) (fun _ _ => 1) rfl rfl rfl _ _ _ loop_state benchClock _ benchEx_comparator
  obtain ⟨f', c', ds', D, hf', hc', hD, h⟩ := C172_opamp_partial (fun _ _ => "x") loopEx 1 one_ne_zero (fun _ _ => -1)
    (fun _ _ => 1) rfl rfl rfl (fun _ _ _ _ => rfl) _ 1 (1 / 4) 2 lines hlines (by norm_num) (by norm_num) (by norm_num)
  rw [hf] at hf'
  cases hf'
  rw [hc] at hc'
  cases hc'
  obtain rfl : D = clockedDef := Except.ok.inj (hD.symm.trans (clocked_def _))
  rw [div_self two_ne_zero] at hpot
  have hb := bench_bench sol hpot
  have ht : raisedTiming (2 / 2) ⟨0, 0, 1 / 1000, 1 / 1000, 1 / 100, -1, 1⟩ = benchTiming 1 2 := by
    norm_num [raisedTiming, benchTiming]
  rw [ht] at hl
  refine ⟨sol, lines, hlines, hv, hb, ?_⟩
  have := h law sol benchV benchCfg benchSt benchPhi 0 1 1 (1 / 250) 2 3 (benchRaw benchV 13) _ hop hl hv hb bench_run
    le_rfl (fun _ _ => by simp [loopEx]) zero_le_one (fun _ _ => by simp [loopEx]) (fun _ _ => by simp [loopEx])
    (bench_starts sol hpot) bench_clear (bench_recorded benchV) (fun _ _ _ _ => rfl) (by norm_num)
  have e : min 2 (⌈(3 : ℝ) / 1⌉₊ - 1) = 2 := by
    rw [div_one, show (3 : ℝ) = ((3 : ℕ) : ℝ) by norm_num, Nat.ceil_natCast]
    rfl
  rwa [e] at this

/-- The vectors of that circuit are one. -/
theorem bench_ones (lines : List TestBench.SourceLine)
    (hlines : sourceLines (fun _ _ => "x") [.sinusoidal 0 1 0 1] loopEx.M 1 (1 / 4) 2 = .ok lines)
    (hv : Holds lines benchV) (k : ℕ) (hk : k < 3) :
    circuitSource loopEx.M (size 3 1) (2 / 2) (benchRaw benchV 13) k = .ok fun _ => 1 := by
  obtain ⟨h1, h2⟩ := TestBench.C115_partial (fun _ _ => "x") [.sinusoidal 0 1 0 1] loopEx.M 1 (1 / 4) 2 lines hlines
    benchV hv (by norm_num) (by norm_num) (by norm_num) 3 _ _ (bench_recorded benchV)
  have e : ∀ i m, (benchRaw benchV 13).v i m = 2 := by
    intro i m
    have := benchV_signal (.s true m) ((i : ℕ) * (1 / 4))
    simp only [Circuit.Signal.name, sfx, if_true, Circuit.Signal.half] at this
    show benchV (fmt "OUT" m "_P") ((i : ℕ) * (1 / 4)) = 2
    rw [this]
    norm_num
  have h : ∃ vec i, call (Sim.next (size 3 1) (2 / 2) (benchRaw benchV 13)) .new k = .ok vec ∧
      ∀ m, NgSpice.Spec.IsDigit ((benchRaw benchV 13).v i m / 2) (vec m) := by
    cases k with
    | zero =>
      obtain ⟨vec, h3, h4⟩ := h1 (by norm_num)
      exact ⟨vec, 0, h3, h4⟩
    | succ k =>
      obtain ⟨i, vec, -, -, -, -, h3, h4⟩ := h2 k (by
        rw [div_one, show (3 : ℝ) = ((3 : ℕ) : ℝ) by norm_num, Nat.ceil_natCast]
        exact hk)
      exact ⟨vec, i, h3, h4⟩
  obtain ⟨vec, i, h3, h4⟩ := h
  unfold circuitSource
  rw [h3]
  refine congrArg Except.ok (funext fun m => ?_)
  have h5 := h4 m
  rw [e, div_self two_ne_zero] at h5
  rcases h5 with ⟨h5, -⟩ | ⟨-, h5, -⟩ | ⟨-, h5⟩
  · norm_num at h5
  · norm_num at h5
  · exact h5

/-- **C172** is not true of all estimates: before the window is filled, the buffer of zeros of the estimator is in the
place of the first vector of the circuit, and that is never zero once it is valued. -/
theorem C172_first_false : ∃ (sol : Circuit.Spec.Sol) (lines : List TestBench.SourceLine),
    sourceLines (fun _ _ => "x") [.sinusoidal 0 1 0 1] loopEx.M 1 (1 / 4) 2 = .ok lines ∧ Holds lines benchV ∧
    Bench loopEx [.sinusoidal 0 1 0 1] 1 (1 / 4) 2 benchV sol benchCfg benchSt ∧
    SameEstimates (circuitSource loopEx.M (size 3 1) (2 / 2) (benchRaw benchV 13)) (ownSource benchSt) 2 ∧
    ∃ (c : Coeffs ℝ 1 loopEx.M 1) (f : FIR ℝ loopEx.M 1), FIR.new c 1 1 1 false 1 0 none = .ok f ∧
      call (f.next (circuitSource loopEx.M (size 3 1) (2 / 2) (benchRaw benchV 13))) FIRState.init 1 = .ok 0 ∧
      call (f.next (ownSource benchSt)) FIRState.init 0 = .ok 1 := by
  obtain ⟨sol, lines, hlines, hv, hb, hsame⟩ := bench_same
  obtain ⟨f, hf⟩ := (C31_fir_accepts (⟨1, 1, fun _ _ => 1, fun _ _ => 1, 1⟩ : Coeffs ℝ 1 loopEx.M 1) 1 1 1 false 1 0
    none).mpr (by norm_num)
  refine ⟨sol, lines, hlines, hv, hb, hsame, _, f, hf, ?_, ?_⟩
  · rw [C31_fir_estimate _ 1 1 1 false 1 0 none f hf _ (fun _ _ => 1) 1 (by norm_num) (Or.inl rfl)
      fun j hj => bench_ones lines hlines hv j (by omega)]
    norm_num [Spec.future, Spec.past, Spec.ext]
  · rw [C31_fir_estimate _ 1 1 1 false 1 0 none f hf (ownSource benchSt) (fun k => signal (benchSt (k + 1)).c) 0 (by norm_num)
      (Or.inl rfl) fun j hj => rfl]
    refine congrArg Except.ok (funext fun l => ?_)
    norm_num [Spec.future, Spec.past, Spec.ext, signal, benchSt, Matrix.mulVec, dotProduct, loopEx]
    exact (Fin.sum_univ_one _).trans
      (congrFun (congrFun (Matrix.one_mul (fun _ _ => (1 : ℝ) : Matrix (Fin 1) (Fin 1) ℝ)) l) 0)

/-- The hypotheses of `C172_opamp_partial` are met (`bench_same`): an FIR filter of two taps gives the second estimate
of the package's own simulation as third one from the circuit, which are both zero. -/
example : ∃ f : FIR ℝ loopEx.M 1, FIR.new ⟨(1 : Matrix (Fin 1) (Fin 1) ℝ), 1, fun _ _ => 1, fun _ _ => 1, 1⟩ 1 1 1 false 1 0
      none = .ok f ∧ ∃ y,
    call (f.next (circuitSource loopEx.M (size 3 1) (2 / 2) (benchRaw benchV 13))) FIRState.init 2 = .ok y ∧
    call (f.next (ownSource benchSt)) FIRState.init 1 = .ok y := by
  obtain ⟨f, hf⟩ := (C31_fir_accepts (⟨1, 1, fun _ _ => 1, fun _ _ => 1, 1⟩ : Coeffs ℝ 1 loopEx.M 1) 1 1 1 false 1 0
    none).mpr (by norm_num)
  obtain ⟨-, -, -, -, -, h⟩ := bench_same
  obtain ⟨-, rfl⟩ := fir_new_ok (K1 := 1) (K2 := 1) hf
  exact ⟨_, hf, h.1 1 _ rfl rfl (by decide) 1 (by norm_num) le_rfl⟩

/-- The hypotheses of `C172_gmc_partial` are met in the same way. -/
example : ∃ (sol : Circuit.Spec.Sol) (lines : List TestBench.SourceLine),
    sourceLines (fun _ _ => "x") [.sinusoidal 0 1 0 1] loopEx.M 1 (1 / 4) 2 = .ok lines ∧ Holds lines benchV ∧
    Bench loopEx [.sinusoidal 0 1 0 1] 1 (1 / 4) 2 benchV sol benchCfg benchSt ∧
    SameEstimates (circuitSource loopEx.M (size 3 1) (2 / 2) (benchRaw benchV 13)) (ownSource benchSt)
      (min 2 (⌈(3 : ℝ) / 1⌉₊ - 1)) := by
  obtain ⟨lines, hlines, hv⟩ := bench_sources
  obtain ⟨f, os, c, ds, hf, hc, law, sol, hop, hl, hpot⟩ := loop_realisable_gmc_mid (fun _ _ => "x") loopEx 1 (2 / 2)
    (fun _ _ => -1) (fun _ _ => 1) rfl rfl rfl _ _ _ loop_state benchClock _ benchEx_comparator
  obtain ⟨f', os', c', ds', D, hf', hc', hD, h⟩ := C172_gmc_partial (fun _ _ => "x") loopEx 1 one_ne_zero (fun _ _ => -1)
    (fun _ _ => 1) rfl rfl rfl (fun _ _ _ _ => rfl) _ 1 (1 / 4) 2 lines hlines (by norm_num) (by norm_num) (by norm_num)
  rw [hf] at hf'
  cases hf'
  rw [hc] at hc'
  cases hc'
  obtain rfl : D = clockedDef := Except.ok.inj (hD.symm.trans (clocked_def _))
  rw [div_self two_ne_zero] at hpot
  have hb := bench_bench sol hpot
  have ht : raisedTiming (2 / 2) ⟨0, 0, 1 / 1000, 1 / 1000, 1 / 100, -1, 1⟩ = benchTiming 1 2 := by
    norm_num [raisedTiming, benchTiming]
  rw [ht] at hl
  exact ⟨sol, lines, hlines, hv, hb, h law sol benchV benchCfg benchSt benchPhi 0 1 1 (1 / 250) 2 3 (benchRaw benchV 13) _
    hop hl hv hb bench_run le_rfl (fun _ _ => by simp [loopEx]) zero_le_one (fun _ _ => by simp [loopEx])
    (fun _ _ => by simp [loopEx]) (bench_starts sol hpot) bench_clear (bench_recorded benchV) (fun _ _ _ _ => rfl)
    (by norm_num)⟩

end Cbadc.ClosedLoop
