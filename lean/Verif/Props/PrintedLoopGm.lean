import Verif.Props.PrintedLoop
import Verif.Props.FrontendTextGm

/-!
# C175 for the printed Gm-C frontend
-/

namespace Cbadc.ClosedLoop
open Cbadc.Analog Cbadc.Control Cbadc.Simulate Cbadc.Circuit Cbadc.Circuit.Spec Cbadc.NgSpice
open Cbadc.Streams Cbadc.Estimator
open Cbadc.TestBench (sourceLines Recorded)
open Cbadc.TestBench.Spec (Holds)
open Cbadc.FrontendText (Near plain small pull push Shape readPorts readOtaPorts readDef gmcText seen Close)
open Cbadc.NetlistText (Text)

/-- The nodes of the states of a Gm-C frontend, as they are read. -/
def readStates (N : ℕ) : List String := (List.range N).flatMap fun n => [fmt "x" n "_p", fmt "x" n "_n"]

/-- Rows of a matrix with a leakage in the diagonal. -/
theorem leaky_rows {δ ρ r : ℝ} {N : ℕ} {A' A : ℕ → ℕ → ℝ} (h : Close δ N N A' A) (hr : |r| ≤ ρ) (X : ℝ) (hX : 0 ≤ X)
    (n : ℕ) (hn : n < N) :
    rowChange N A (fun n j => A' n j - if n = j then r else 0) X n ≤ δ * ((∑ j ∈ Finset.range N, |A n j|) * X) + ρ * X ∧
      ∑ j ∈ Finset.range N, |A' n j - if n = j then r else 0| ≤ (1 + δ) * (∑ j ∈ Finset.range N, |A n j|) + ρ := by
  have hsum : ∑ j ∈ Finset.range N, |if n = j then r else 0| = |r| := by
    rw [Finset.sum_eq_single n]
    · rw [if_pos rfl]
    · intro j _ hj
      rw [if_neg (Ne.symm hj), abs_zero]
    · intro h
      exact absurd (Finset.mem_range.mpr hn) h
  obtain ⟨h1, h2⟩ := close_rows h X hX n hn
  constructor
  · have : ∑ j ∈ Finset.range N, |A' n j - (if n = j then r else 0) - A n j| ≤
        (∑ j ∈ Finset.range N, |A' n j - A n j|) + |r| := by
      rw [← hsum, ← Finset.sum_add_distrib]
      refine Finset.sum_le_sum fun j _ => ?_
      rw [sub_right_comm]
      exact abs_sub _ _
    unfold rowChange at h1 ⊢
    have h3 := mul_le_mul_of_nonneg_right this hX
    rw [add_mul] at h3
    have h4 := mul_le_mul_of_nonneg_right hr hX
    linarith
  · have : ∑ j ∈ Finset.range N, |A' n j - (if n = j then r else 0)| ≤ (∑ j ∈ Finset.range N, |A' n j|) + |r| := by
      rw [← hsum, ← Finset.sum_add_distrib]
      exact Finset.sum_le_sum fun j _ => abs_sub _ _
    linarith

section
variable {num : ℝ → Text} {val : Text → Option ℝ} {isFloat : Text → Bool} {ids : String → ℕ → String}

open Cbadc.FrontendText in
/-- What is read from the printed Gm-C frontend, apart from the transconductors. -/
theorem gmc_read (S : Sys ℝ) (C : ℝ) (gain : Option ℝ) (ε : ℝ) (hn : Near num val ε (2 * C)) (t : Text) (ts : List Text)
    (ht : gmcText num isFloat ids S C gain = .ok (t, ts)) :
    readDef val t = some ("ota_frontend", ⟨readPorts S.L S.M,
      (gmNet S.N S.L S.M (seen num val (2 * C) / 2)).map small⟩) ∧
      ∀ l ∈ gmNet S.N S.L S.M (seen num val (2 * C) / 2), Shape l := by
  obtain ⟨s, hs, hnet, hnd⟩ := gmc_netlist ids S.N S.L S.M C
  have hgmOk := gmNet_ok S.N S.L S.M C hn.legible
  obtain ⟨t', ht', hr⟩ := sub_read (num := num) (val := val) (isFloat := isFloat) (ids := ids) "ota_frontend"
    (by decide) (by decide) (frontendPins S.L S.M) s (fun p hp => ⟨gmc_ports _ _ _ _ hs p, ports_ok _ _ p hp⟩)
    (fun e he g hd => by
      have hm : e.line (Obj.name ids) s.wires ∈ gmNet S.N S.L S.M C := by rw [← hnet]; exact List.mem_map_of_mem he
      exact absurd hd ((hgmOk _ hm).2 g))
    (by rw [hnet]; exact fun l hl => (hgmOk l hl).1)
  have hgm := gmNet_seen S.N S.L S.M (seen num val) C
  have hnet2 : (s.netlist (Obj.name ids)).map (fun l => small (onLine (seen num val) l)) =
      (gmNet S.N S.L S.M (seen num val (2 * C) / 2)).map small := by
    rw [hnet, ← hgm, List.map_map]
    rfl
  rw [hnet2, ports_plain] at hr
  have e : t = t' := by
    unfold gmcText at ht
    rw [hs] at ht
    dsimp only at ht
    rw [ht'] at ht
    split at ht
    · cases ht
    · cases ht
      rfl
  refine ⟨by rw [e]; exact hr, ?_⟩
  rw [← hgm]
  intro l hl
  obtain ⟨k, hk, rfl⟩ := List.mem_map.1 hl
  exact (hgmOk k hk).1.shape _

/-- **C175** for the Gm-C frontend: the frontend and the transconductors are what ngspice reads from the printed text. -/
theorem C175_gmc_text_partial (S : Sys ℝ) (C : ℝ) (hC : C ≠ 0) (gain : Option ℝ) (G GT : ℕ → ℕ → ℝ)
    (hG : S.Gamma = some G) (hGT : S.GammaT = some GT) (hM : S.M = S.Mt)
    (hAt : ∀ i < S.Mt, ∀ m < S.M, S.At i m = 0) (ε : ℝ) (hε : ε < 1) (hn : Near num val ε (2 * C))
    (hA : ∀ n < S.N, ∀ j < S.N, S.A n j ≠ 0 → Near num val ε |S.A n j * C| ∧ isFloat (num |S.A n j * C|) = true)
    (hB : ∀ n < S.N, ∀ l < S.L, S.B n l ≠ 0 → Near num val ε |S.B n l * C| ∧ isFloat (num |S.B n l * C|) = true)
    (hH : ∀ n < S.N, ∀ m < S.M, G n m ≠ 0 → Near num val ε |G n m * C| ∧ isFloat (num |G n m * C|) = true)
    (b : ℝ) (hgain : ∀ g, gain = some g → g ≠ 0 ∧ b ≠ 0 ∧ LargestEntry S.N S.L S.B b ∧
      Near num val ε (2 * (g / (b * C))))
    (inputs : List TestBench.Signal) (T tt vdd : ℝ)
    (lines : List TestBench.SourceLine) (hlines : sourceLines ids inputs S.M T tt vdd = .ok lines) (htt : 0 < tt)
    (hT : 2 * tt ≤ T) (hvdd : 0 < vdd) :
    ∃ (t : Text) (ts : List Text) (body : List (Line ℝ)) (defs : ℕ → List (Line ℝ)) (c : Circuit.Sub Obj ℝ)
      (ds : List (Def ℝ)) (D : Def ℝ), gmcText num isFloat ids S C gain = .ok (t, ts) ∧
      readDef val t = some ("ota_frontend", ⟨readPorts S.L S.M, body⟩) ∧ ts.length = S.N ∧
      (∀ n < S.N, readDef val (ts.getD n []) =
        some (fmt "multi_input_ota_" n "", ⟨readOtaPorts S.N S.L S.M, defs n⟩)) ∧
      digitalControl ids S 0 (vdd / 2) = .ok (c, ds) ∧ clockedComparator ids = .ok D ∧
      ∀ (law : Law) (sol : Circuit.Spec.Sol) (v : String → ℝ → ℝ) (cfg : Cfg S.M) (st : ℕ → St S.M)
        (φ : ℕ → ℝ → ℕ → ℝ) (a g h E X U η δ ρ : ℝ) (K : ℕ) (tEnd : ℝ) (raw : Raw) (time : ℕ → ℝ),
        (∀ n < S.N, ∀ v i, law (fmt "multi_input_ota_" n "") v i →
          ObeysDef law ⟨readOtaPorts S.N S.L S.M, defs n⟩ v i) → CaseBlind sol →
        Loop law sol (benchTiming T vdd) (vdd / 2) body (readStates S.N)
          (c.definition ids (controlPins S.N S.L S.M)) ds D →
        Holds lines v → Bench S inputs T tt vdd v sol cfg st → Run cfg st φ → δ = 2 * ε / (1 - ε) →
        0 ≤ ρ → (∀ g, gain = some g → 1 / (1 - ε) ^ 2 * |b / (4 * g)| ≤ ρ) →
        0 ≤ a → (∀ n < S.N, (1 + δ) * (∑ j ∈ Finset.range S.N, |S.A n j|) + ρ ≤ a) →
        0 ≤ g → (∀ n < S.N, (1 + δ) * ∑ m ∈ Finset.range S.M, |G n m| ≤ g) →
        (∀ m < S.M, ∑ n ∈ Finset.range S.N, |GT m n| ≤ h) → 0 ≤ X → Within cfg φ X K →
        0 ≤ U → (∀ k t, ∀ l < S.L, |cfg.input k t l| ≤ U) → 0 ≤ η →
        (∀ n < S.N, δ * ((∑ j ∈ Finset.range S.N, |S.A n j|) * X + (∑ l ∈ Finset.range S.L, |S.B n l|) * U
          + ∑ m ∈ Finset.range S.M, |G n m|) + ρ * X ≤ η) →
        Starts S (benchTiming T vdd) sol cfg st g E →
        Clear S (benchTiming T vdd) cfg st h (mismatched a T g (T / 100) η E) K →
        Follows S (benchTiming T vdd) sol cfg st φ (mismatched a T g (T / 100) η E) K ∧
        (Recorded v T tEnd raw time → (∀ i < raw.n, ∀ m < S.M, raw.v i m = v (fmt "OUT" m "_P") (time i)) →
          (∀ k < K, k + 1 < ⌈tEnd / T⌉₊ → ∃ vec, call (Sim.next (size tEnd T) (vdd / 2) raw) .new (k + 1) = .ok vec ∧
            ∀ m : Fin S.M, vec m = signal (st (k + 1)).c m) ∧
          (0 < tEnd → SameEstimates (circuitSource S.M (size tEnd T) (vdd / 2) raw) (ownSource st)
            (min K (⌈tEnd / T⌉₊ - 1)))) := by
  obtain ⟨t, ts, body, defs, A', B', G', r, ht, hr, -, hlen, hd, cA, cB, cG, hleak, hstate, -⟩ :=
    (FrontendText.C168_gmc_text (num := num) (val := val) (isFloat := isFloat) (ids := ids) S C hC gain).2 G hG ε hε hn hA hB
      hH b hgain
  obtain ⟨hr2, hshape⟩ := gmc_read S C gain ε hn t ts ht
  rw [hr] at hr2
  cases hr2
  obtain ⟨c, ds, D, hc, hD, hf⟩ := follows_other ids S (vdd / 2) G GT hG hGT hM hAt
    (fun n j => A' n j - if n = j then r else 0) B' G'
  refine ⟨t, ts, _, defs, c, ds, D, ht, hr, hlen, fun n hn => (hd n hn).1, hc, hD, ?_⟩
  intro law sol v cfg st φ a g h E X U η δ ρ K tEnd raw time hot hbl hl hv bn hrun hδ hρ0 hρ ha hAa hg hGg hGTh hX0 hX hU0 hU hη
    hrow hst hcl
  rw [← hδ] at cA cB cG
  have hr' : |r| ≤ ρ := by
    cases gain with
    | none =>
      dsimp only at hleak
      rw [hleak, abs_zero]
      exact hρ0
    | some g =>
      dsimp only at hleak
      have h1 := hρ g rfl
      have h2 := abs_sub_abs_le_abs_sub r (b / (4 * g))
      linarith
  have hl' := (loop_small_nodes (nodes := (List.range S.N).flatMap fun n => [fmt "X" n "_P", fmt "X" n "_N"]) hshape
    (fun x hx => by
      obtain ⟨n, -, hn⟩ := List.mem_flatMap.mp hx
      simp only [List.mem_cons, List.not_mem_nil, or_false] at hn
      rcases hn with rfl | rfl
      · exact (FrontendText.node_ok "X" "_P" n (by simp) (by simp)).2
      · exact (FrontendText.node_ok "X" "_N" n (by simp) (by simp)).2) hbl).mp (by
    rw [plain_pairs "X" "x" _ (by decide)]
    exact hl)
  have name : ∀ (p q p' q' : String) (n : ℕ), p.toList.map Char.toLower = p'.toList →
      q.toList.map Char.toLower = q'.toList → sol.v (fmt p' n q') = sol.v (fmt p n q) := fun p q p' q' n hp hq => by
    rw [← FrontendText.plain_fmt p q p' q' n hp hq]
    exact hbl.1 _
  have hdiff : ∀ (p p' : String) (n : ℕ), p.toList.map Char.toLower = p'.toList →
      diff sol (fmt p' n "_p") (fmt p' n "_n") = diff sol (fmt p n "_P") (fmt p n "_N") := fun p p' n hp => by
    unfold diff
    rw [name p "_P" p' "_p" n hp (by decide), name p "_N" p' "_n" n hp (by decide)]
  have hfol := hf law sol _ _ _ cfg st φ a g h E X U η K hl' List.mem_cons_self (by
      have := hstate law sol (loop_senses ids S (vdd / 2) GT hGT hM c ds hc law hl.control hl.compare) hot hl.devices
        fun n hn => ⟨hl.nodes _ (List.mem_flatMap.mpr ⟨n, List.mem_range.mpr hn, List.mem_cons_self⟩),
          hl.nodes _ (List.mem_flatMap.mpr ⟨n, List.mem_range.mpr hn, List.mem_cons_of_mem _ List.mem_cons_self⟩)⟩
      simp only [hdiff "X" "x" _ (by decide), hdiff "IN" "in" _ (by decide), hdiff "OUT" "out" _ (by decide)] at this
      exact this)
    (bench_alike hlines htt hT hvdd hv hl.mid bn hrun) hrun ha
    (fun n hn => ((leaky_rows cA hr' 0 le_rfl n hn).2).trans (hAa n hn)) hg
    (fun n hn => ((close_rows cG 0 le_rfl n hn).2).trans (hGg n hn)) hGTh hX hU hη
    (fun n hn => by
      have h1 := (leaky_rows cA hr' X hX0 n hn).1
      have h2 := (close_rows cB U hU0 n hn).1
      have h3 := (close_rows cG 1 zero_le_one n hn).1
      have h4 := hrow n hn
      rw [mul_one] at h3
      linarith) hst (by rw [bn.period]; exact hcl)
  rw [bn.period] at hfol
  refine ⟨hfol, fun hrec hout => ?_⟩
  have hvec := bench_vectors hlines htt hT hvdd hv bn hrun _ K hfol tEnd raw time hrec hout
  refine ⟨hvec, fun hend => ?_⟩
  obtain ⟨vec, h0, -⟩ := (TestBench.C115_partial ids inputs S.M T tt vdd lines hlines v hv htt hT hvdd tEnd raw time
    hrec).1 hend
  exact same_estimates _ _ _ _ _ ⟨vec, h0⟩ fun k hk => hvec k (by omega) (by omega)

end

/-! ## A case -/

/-- Values around one are printed as one, others as one half. -/
noncomputable def halfPrinted (r : ℝ) : Text := if 3 / 4 < r then "1.000".toList else "0.500".toList

/-- The two texts are read. -/
noncomputable def halfRead (t : Text) : Option ℝ :=
  if t = "1.000".toList then some 1 else if t = "0.500".toList then some (1 / 2) else none

theorem near_full : Near halfPrinted halfRead (1 / 1000) (2 * (5002 / 10000)) := by
  have e : halfPrinted (2 * (5002 / 10000)) = "1.000".toList := if_pos (by norm_num)
  refine ⟨by rw [e]; decide, 1, by rw [e]; exact if_pos rfl, by norm_num [abs_le]⟩

theorem near_half : Near halfPrinted halfRead (1 / 1000) (5002 / 10000) := by
  have e : halfPrinted (5002 / 10000) = "0.500".toList := if_neg (by norm_num)
  refine ⟨by rw [e]; decide, 1 / 2, ?_, by norm_num [abs_le]⟩
  rw [e]
  unfold halfRead
  rw [if_neg (by decide), if_pos rfl]

theorem seen_full : seen halfPrinted halfRead (2 * (5002 / 10000)) = 1 := by
  have e : halfPrinted (2 * (5002 / 10000)) = "1.000".toList := if_pos (by norm_num)
  unfold FrontendText.seen halfRead
  rw [e, if_pos rfl]
  rfl

theorem seen_half : seen halfPrinted halfRead (5002 / 10000) = 1 / 2 := by
  have e : halfPrinted (5002 / 10000) = "0.500".toList := if_neg (by norm_num)
  unfold FrontendText.seen halfRead
  rw [e, if_neg (by decide), if_pos rfl]
  rfl

/-- The hypotheses of `C175_gmc_text_partial` are met with a capacitance of `0.5002` and transconductances of `0.5002`,
which are printed with three decimals. -/
example : ∃ (sol : Circuit.Spec.Sol) (lines : List TestBench.SourceLine) (t : Text) (ts : List Text) (body : List (Line ℝ)),
    sourceLines (fun _ _ => "x") [.sinusoidal 0 1 0 1] loopEx.M 1 (1 / 4) 2 = .ok lines ∧ Holds lines benchV ∧
    gmcText halfPrinted (fun _ => true) (fun _ _ => "x") loopEx (5002 / 10000) none = .ok (t, ts) ∧
    readDef halfRead t = some ("ota_frontend", ⟨readPorts loopEx.L loopEx.M, body⟩) ∧
    (∃ law, ∀ l ∈ body, Obeys law sol l) ∧
    Bench loopEx [.sinusoidal 0 1 0 1] 1 (1 / 4) 2 benchV sol benchCfg benchSt ∧
    (∀ k < 2, ∃ vec, call (Sim.next (size 3 1) (2 / 2) (benchRaw benchV 13)) .new (k + 1) = .ok vec ∧ vec 0 = 1) ∧
    SameEstimates (circuitSource loopEx.M (size 3 1) (2 / 2) (benchRaw benchV 13)) (ownSource benchSt)
      (min 2 (⌈(3 : ℝ) / 1⌉₊ - 1)) := by
  obtain ⟨lines, hlines, hv⟩ := bench_sources
  have hone : ∀ r : ℝ, |r| = 1 → Near halfPrinted halfRead (1 / 1000) |r * (5002 / 10000)| := fun r hr => by
    rw [abs_mul, hr, one_mul, abs_of_pos (by norm_num)]
    exact near_half
  have hA : ∀ n < loopEx.N, ∀ j < loopEx.N, loopEx.A n j ≠ 0 →
      Near halfPrinted halfRead (1 / 1000) |loopEx.A n j * (5002 / 10000)| := fun n _ j _ h => absurd rfl h
  have hB : ∀ n < loopEx.N, ∀ l < loopEx.L, loopEx.B n l ≠ 0 →
      Near halfPrinted halfRead (1 / 1000) |loopEx.B n l * (5002 / 10000)| := fun n _ j _ _ =>
    hone _ (by norm_num [loopEx])
  have hH : ∀ n < loopEx.N, ∀ m < loopEx.M, ((fun _ _ => -1 : ℕ → ℕ → ℝ) n m) ≠ 0 →
      Near halfPrinted halfRead (1 / 1000) |(fun _ _ => -1 : ℕ → ℕ → ℝ) n m * (5002 / 10000)| := fun n _ j _ _ =>
    hone _ (by norm_num)
  obtain ⟨t, ts, body, defs, c', ds', D, ht, hr, hlen, hdefs, hc', hD, h⟩ := C175_gmc_text_partial (isFloat := fun _ => true)
    (ids := fun _ _ => "x") loopEx (5002 / 10000) (by norm_num) none (fun _ _ => -1) (fun _ _ => 1) rfl rfl rfl
    (fun _ _ _ _ => rfl) (1 / 1000) (by norm_num) near_full (fun n a j b h => ⟨hA n a j b h, rfl⟩)
    (fun n a j b h => ⟨hB n a j b h, rfl⟩) (fun n a j b h => ⟨hH n a j b h, rfl⟩) 0 (fun _ h => by cases h) _ 1 (1 / 4) 2
    lines hlines (by norm_num) (by norm_num) (by norm_num)
  have e0 : FrontendText.ofGm (seen halfPrinted halfRead) (5002 / 10000) 0 = 0 := FrontendText.ofGm_zero _ _
  have e1 : FrontendText.ofGm (seen halfPrinted halfRead) (5002 / 10000) 1 = 1 := by
    unfold FrontendText.ofGm
    rw [show |(1 : ℝ) * (5002 / 10000)| = 5002 / 10000 by norm_num, seen_full, seen_half]
    norm_num
  have e2 : FrontendText.ofGm (seen halfPrinted halfRead) (5002 / 10000) (-1) = -1 := by
    unfold FrontendText.ofGm
    rw [show |(-1 : ℝ) * (5002 / 10000)| = 5002 / 10000 by norm_num, seen_full, seen_half]
    norm_num
  have hsys : FrontendText.gmSys (seen halfPrinted halfRead) loopEx (fun _ _ => -1) (5002 / 10000) = loopEx := by
    unfold FrontendText.gmSys loopEx
    simp only [e0, e1, e2]
  -- the netlist that is read
  obtain ⟨hr2, hshape⟩ := gmc_read loopEx (5002 / 10000) none (1 / 1000) near_full t ts ht
  rw [seen_full] at hr2 hshape
  rw [hr] at hr2
  cases hr2
  -- the transconductor that is read
  have hmo := FrontendText.moNet_seen loopEx (fun _ _ => -1) 0 none (by norm_num : (1 / 1000 : ℝ) < 1)
    (by norm_num : (5002 / 10000 : ℝ) ≠ 0) near_full (hA 0 Nat.one_pos) (hB 0 Nat.one_pos) (hH 0 Nat.one_pos)
    (fun h => absurd rfl h)
  rw [hsys] at hmo
  simp only [e2, seen_full, FrontendText.ofGain] at hmo
  have hmoOk := FrontendText.moNet_ok (num := halfPrinted) (val := halfRead) loopEx (fun _ _ => -1) 0 (5002 / 10000) none
    (fun j a h => (hA 0 Nat.one_pos j a h).legible) (fun j a h => (hB 0 Nat.one_pos j a h).legible)
    (fun j a h => (hH 0 Nat.one_pos j a h).legible) (fun _ h => by cases h)
  have hmoShape : ∀ l ∈ moNet loopEx (fun _ _ => -1) 0 (1 / 2) none, Shape l := by
    rw [← hmo]
    intro l hl
    obtain ⟨k, hk, rfl⟩ := List.mem_map.1 hl
    exact (hmoOk k hk).shape _
  obtain ⟨tx, htx, htr⟩ := FrontendText.multiOta_read (num := halfPrinted) (val := halfRead) (isFloat := fun _ => true)
    (ids := fun _ _ => "x") loopEx (fun _ _ => -1) rfl 0 (5002 / 10000) none (fun h => absurd rfl h)
    (fun j a h => ⟨(hA 0 Nat.one_pos j a h).legible, rfl⟩) (fun j a h => ⟨(hB 0 Nat.one_pos j a h).legible, rfl⟩)
    (fun j a h => ⟨(hH 0 Nat.one_pos j a h).legible, rfl⟩) (fun _ h => by cases h)
  have hdef : defs 0 = (moNet loopEx (fun _ _ => -1) 0 (1 / 2) none).map small := by
    have h1 := hdefs 0 Nat.one_pos
    have h2 : ts.getD 0 [] = tx := by
      unfold FrontendText.gmcText at ht
      have e : (List.range loopEx.N).mapM (fun n => FrontendText.multiOtaText halfPrinted (fun _ => true) (fun _ _ => "x") loopEx n
          (5002 / 10000) none) = .ok [tx] := by
        show (List.range 1).mapM _ = _
        rw [List.range_one, List.mapM_cons, htx]
        rfl
      rw [e] at ht
      dsimp only at ht
      split at ht
      · cases ht
      · split at ht
        · cases ht
        · cases ht
          rfl
    rw [h2, htr] at h1
    have h3 := congrArg Def.body (Prod.mk.inj (Option.some.inj h1)).2
    dsimp only at h3
    rw [← h3, ← hmo, List.map_map]
    rfl
  obtain ⟨f, os, c, ds, hf, hc, law, sol, hop, hl, hpot⟩ := loop_realisable_gmc_mid (fun _ _ => "x") loopEx (1 / 2) (2 / 2)
    (fun _ _ => -1) (fun _ _ => 1) rfl rfl rfl _ _ _ loop_state benchClock _ benchEx_comparator
  obtain ⟨f', hf', hnet, -⟩ := gmcFrontend_ok (fun _ _ => "x") loopEx (fun _ _ => -1) rfl (1 / 2) none (fun h => absurd rfl h)
  rw [hf] at hf'
  injection hf' with hf'
  obtain ⟨rfl, rfl⟩ := Prod.mk.inj hf'
  rw [hc] at hc'
  cases hc'
  obtain rfl : D = clockedDef := Except.ok.inj (hD.symm.trans (clocked_def _))
  rw [div_self two_ne_zero] at hpot
  have hb := bench_bench sol hpot
  have htm : raisedTiming (2 / 2) ⟨0, 0, 1 / 1000, 1 / 1000, 1 / 100, -1, 1⟩ = benchTiming 1 2 := by
    norm_num [raisedTiming, benchTiming]
  rw [htm, hnet] at hl
  have hl2 := loop_push_nodes hshape (fun x hx => by
      obtain ⟨n, -, hn⟩ := List.mem_flatMap.mp hx
      simp only [List.mem_cons, List.not_mem_nil, or_false] at hn
      rcases hn with rfl | rfl
      · exact (FrontendText.node_ok "X" "_P" n (by simp) (by simp)).2
      · exact (FrontendText.node_ok "X" "_N" n (by simp) (by simp)).2) hl
  rw [plain_pairs "X" "x" _ (by decide)] at hl2
  have key := h law (pull (push sol)) benchV benchCfg benchSt benchPhi 0 (1 + 2 * (1 / 1000) / (1 - 1 / 1000)) 1
    (2 * (1 + 2 * (1 / 1000) / (1 - 1 / 1000)) * (1 / 500))
    (1 + 1 / 500) 1 (1 / 100) _ 0 2 3 (benchRaw benchV 13) (fun i => (i : ℕ) * (1 / 4)) (by
      intro n hn v i hvi
      obtain rfl : n = 0 := by
        have : n < 1 := hn
        omega
      rw [hdef, ← FrontendText.otaPorts_plain]
      exact (FrontendText.obeysDef_small (fun p hp => (FrontendText.otaPorts_ok _ _ _ p hp).2) hmoShape law v i).mpr
        (hop 0 (by decide) v i hvi)) (blind_push sol) hl2 hv (bench_push hb) bench_run rfl le_rfl (fun _ h => by cases h) le_rfl
    (fun _ _ => by simp [loopEx]) (by norm_num) (fun _ _ => by norm_num [loopEx]) (fun _ _ => by norm_num [loopEx])
    (by norm_num) (bench_within 2) zero_le_one (fun _ _ _ _ => by norm_num [benchCfg]) (by norm_num)
    (fun _ _ => by norm_num [loopEx]) (starts_push hpot _ _ rfl) (by
      intro k hk y hy m hm
      obtain rfl : m = 0 := by
        have : m < 1 := hm
        omega
      obtain ⟨y', h1, -, h3⟩ := bench_obs k (contribution benchCfg.dc (benchSt k).c 0)
      obtain rfl : y = y' := Except.ok.inj (hy.symm.trans h1)
      have h4 : 1 ≤ |y.v 0| := h3.trans (le_abs_self _)
      interval_cases k <;> norm_num [mismatched, benchTiming] <;> linarith)
  obtain ⟨k1, k2⟩ := key.2 (bench_recorded benchV) fun _ _ _ _ => rfl
  refine ⟨pull (push sol), lines, t, ts, _, hlines, hv, ht, hr, ⟨law, hl2.devices⟩, bench_push hb, fun k hk => ?_,
    k2 (by norm_num)⟩
  obtain ⟨vec, h1, h2⟩ := k1 k hk (by rw [Nat.lt_ceil]; interval_cases k <;> norm_num)
  exact ⟨vec, h1, (h2 ⟨0, Nat.one_pos⟩).trans (by
    interval_cases k <;> simp [benchSt, signal])⟩

end Cbadc.ClosedLoop
