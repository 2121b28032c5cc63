import Verif.Props.BenchGain
import Verif.Props.FrontendText

/-!
# C175: the printed op-amp frontend in the test bench against the package's own simulation
-/

namespace Cbadc.ClosedLoop
open Cbadc.Analog Cbadc.Control Cbadc.Simulate Cbadc.Circuit Cbadc.Circuit.Spec Cbadc.NgSpice
open Cbadc.Streams Cbadc.Estimator
open Cbadc.TestBench (sourceLines Recorded)
open Cbadc.TestBench.Spec (Holds)
open Cbadc.FrontendText (Near plain small pull push Shape readPorts readDef opampText seen seenSys ofRes)
open Cbadc.NetlistText (Text)

/-- A circuit simulator does not distinguish small and capital letters: nodes and elements whose names differ by the
case only are the same. -/
def CaseBlind (sol : Circuit.Spec.Sol) : Prop :=
  (∀ a, sol.v (plain a.toList) = sol.v a) ∧ ∀ e, sol.i (plain e.toList) = sol.i e

/-- The virtual grounds of an op-amp frontend, as they are read. -/
def readGrounds (N : ℕ) : List String := (List.range N).flatMap fun n => [fmt "vgnd_" n "_p", fmt "vgnd_" n "_n"]

/-- A frontend of another system follows the simulation, up to what the differences of the systems make. -/
theorem follows_other (ids : String → ℕ → String) (S : Sys ℝ) (mid : ℝ) (G GT : ℕ → ℕ → ℝ) (hG : S.Gamma = some G)
    (hGT : S.GammaT = some GT) (hM : S.M = S.Mt) (hAt : ∀ i < S.Mt, ∀ m < S.M, S.At i m = 0)
    (A' B' G' : ℕ → ℕ → ℝ) :
    ∃ c ds D, digitalControl ids S 0 mid = .ok (c, ds) ∧ clockedComparator ids = .ok D ∧
      ∀ (law : Law) (sol : Circuit.Spec.Sol) (p : Timing) (net : List (Line ℝ)) (nodes : List String)
        (cfg : Cfg S.M) (st : ℕ → St S.M) (φ : ℕ → ℝ → ℕ → ℝ) (a g h E X U η : ℝ) (K : ℕ),
        Loop law sol p mid net nodes (c.definition ids (controlPins S.N S.L S.M)) ds D →
        ⟨"Xdc", .sub "digital_control", (controlPins S.N S.L S.M).map OaPart.ctl.hubPin⟩ ∈ net →
        StateEquation S.N S.L S.M A' B' G'
          (fun n => diff sol (fmt "X" n "_P") (fmt "X" n "_N"))
          (fun l => diff sol (fmt "IN" l "_P") (fmt "IN" l "_N"))
          (fun m => diff sol (fmt "OUT" m "_P") (fmt "OUT" m "_N")) →
        Alike S p sol cfg st → Run cfg st φ →
        0 ≤ a → (∀ n < S.N, ∑ j ∈ Finset.range S.N, |A' n j| ≤ a) →
        0 ≤ g → (∀ n < S.N, ∑ m ∈ Finset.range S.M, |G' n m| ≤ g) →
        (∀ m < S.M, ∑ n ∈ Finset.range S.N, |GT m n| ≤ h) → Within cfg φ X K →
        (∀ k t, ∀ l < S.L, |cfg.input k t l| ≤ U) → 0 ≤ η →
        (∀ n < S.N, rowChange S.N S.A A' X n + rowChange S.L S.B B' U n + rowChange S.M G G' 1 n ≤ η) →
        Starts S p sol cfg st g E →
        Clear S p cfg st h (mismatched a cfg.dc.T g p.ramp η E) K →
        Follows S p sol cfg st φ (mismatched a cfg.dc.T g p.ramp η E) K := by
  obtain ⟨c, ds, D, hc, hD, hdec⟩ := loop_control ids S mid GT hGT hM
  refine ⟨c, ds, D, hc, hD, ?_⟩
  intro law sol p net nodes cfg st φ a g h E X U η K hl hmem hx al hrun ha hA hg hGg hGTh hX hU hη hrow hstart hclear
  have hS := al.sys
  have hcl := hdec law sol p net nodes hl hmem
  have hdel := al.delay
  obtain ⟨E₀, hE₀, hx0, hE⟩ := hstart
  have hgd : 0 ≤ 2 * g * cfg.dc.tDelay := by
    rw [hdel]
    have := al.causal.1
    positivity
  have hE0 : E₀ ≤ E := by
    rcases hE with ⟨-, h⟩ | h <;> linarith
  have hV := sub_pos.mpr al.swing
  have hx1 : ∀ n < S.N, |diff sol (fmt "X" n "_P") (fmt "X" n "_N") (st 0).t - (p.high - p.low) * (st 0).x n|
      ≤ (p.high - p.low) * E := fun n hn => (hx0 n hn).trans (mul_le_mul_of_nonneg_left hE0 hV.le)
  have := follow_mismatch cfg G GT A' B' G' GT S.Bt st φ
    (fun n => diff sol (fmt "X" n "_P") (fmt "X" n "_N"))
    (fun l => diff sol (fmt "IN" l "_P") (fmt "IN" l "_N")) (fun m => diff sol (fmt "OUT" m "_P") (fmt "OUT" m "_N"))
    (p.high - p.low) p.ramp p.lo p.hi a g h E η 0 (by rw [hS]; exact hG) (by rw [hS]; exact hGT) (by rw [hS])
    (by rw [hS]; exact hM.symm) al.some (by rw [hS]; exact hAt) al.steps al.offsets al.transition
    (by rw [hdel]; exact al.causal.1) al.causal.2 (by rw [hdel]; exact al.settled) (sub_pos.mpr al.swing) hrun
    (by rw [hS]; exact hx) (by rw [hS]; exact al.input) (by rw [hS]; exact al.smooth)
    (by
      intro k i hi t ht1 ht2
      rw [hdel] at ht1 ht2
      obtain ⟨f, hper⟩ := al.clock k
      obtain ⟨d1, d2⟩ := hcl _ _ _ hper i (by omega) t (by linarith) (by linarith)
      have z : ∀ τ, ∑ m ∈ Finset.range S.M, S.At i m * diff sol (fmt "OUT" m "_P") (fmt "OUT" m "_N") τ = 0 :=
        fun τ => Finset.sum_eq_zero fun m hm => by rw [hAt i (by omega) m (Finset.mem_range.mp hm), zero_mul]
      simp only [z, add_zero] at d1 d2
      rw [hS]
      exact ⟨d1, fun ha => by rw [d2 ha]; ring⟩)
    al.limited al.decided (by
      rw [hS]
      rcases hE with ⟨h1, -⟩ | h
      · exact Or.inl h1
      · refine Or.inr ⟨by linarith, ?_⟩
        rw [show E - 2 * g * cfg.dc.tDelay = E₀ by linarith]
        exact hx0)
    ha (by rw [hS]; exact hA) hg (by rw [hS]; exact hGg) (by rw [hS]; exact hGTh)
    (hE₀.le.trans hE0) hη (by rw [hS]; exact hx1) K
    (by
      rw [hS]
      intro k hk τ h0 h1 w hw n hn
      refine le_trans ?_ (hrow n hn)
      refine (abs_add_le _ _).trans (add_le_add ((abs_add_le _ _).trans (add_le_add ?_ ?_)) ?_)
      · exact sum_bound _ _ _ _ fun j hj => hX k hk τ h0 h1.le j (by rw [hS]; exact hj)
      · exact sum_bound _ _ _ _ fun l hl => hU _ _ l hl
      · exact sum_bound _ _ _ _ fun m hm => hw m hm)
    (by
      rw [hS]
      intro k _ m _
      simp)
    (by
      rw [hS]
      intro k hk y hy m hm
      rw [add_zero]
      exact hclear k hk y hy m hm)
  rw [hS, hdel] at this
  exact this

section
variable {num : ℝ → Text} {val : Text → Option ℝ} {isFloat : Text → Bool} {ids : String → ℕ → String}

open Cbadc.FrontendText in
/-- What is read from the printed op-amp frontend: the netlist of the system with the values that are read, in small
letters. -/
theorem opamp_read (S : Sys ℝ) (C : ℝ) (hC : C ≠ 0) (G : ℕ → ℕ → ℝ) (hG : S.Gamma = some G) (ε : ℝ) (hε : ε < 1)
    (hn : Near num val ε C)
    (hA : ∀ n < S.N, ∀ j < S.N, S.A n j ≠ 0 → Near num val ε (1 / (C * |S.A n j|)))
    (hB : ∀ n < S.N, ∀ l < S.L, S.B n l ≠ 0 → Near num val ε (1 / (C * |S.B n l|)))
    (hH : ∀ n < S.N, ∀ m < S.M, G n m ≠ 0 → Near num val ε (1 / (C * |G n m|))) :
    ∃ t, opampText num isFloat ids S C = .ok t ∧
      readDef val t = some ("opamp_analog_frontend", ⟨readPorts S.L S.M,
        (oaNet (seenSys (seen num val) S G C) (fun n j => ofRes (seen num val) C (G n j)) (seen num val C)).map small⟩) ∧
      ∀ l ∈ oaNet (seenSys (seen num val) S G C) (fun n j => ofRes (seen num val) C (G n j)) (seen num val C),
        Shape l := by
  obtain ⟨s, hs, hnet, hnd⟩ := opamp_netlist ids S G hG C
  have hok := oaNet_ok S G C hn.legible (fun n a j b h => (hA n a j b h).legible) (fun n a j b h => (hB n a j b h).legible)
    fun n a j b h => (hH n a j b h).legible
  obtain ⟨t, ht, hr⟩ := sub_read (num := num) (val := val) (isFloat := isFloat) (ids := ids) "opamp_analog_frontend"
    (by decide) (by decide) (frontendPins S.L S.M) s (fun p hp => ⟨opamp_ports S G hG C hs p, ports_ok _ _ p hp⟩)
    (fun e he g hg => by
      have hm : e.line (Obj.name ids) s.wires ∈ oaNet S G C := by rw [← hnet]; exact List.mem_map_of_mem he
      exact absurd hg ((hok _ hm).2 g))
    (by rw [hnet]; exact fun l hl => (hok l hl).1)
  have hnet2 : (s.netlist (Obj.name ids)).map (fun l => small (onLine (seen num val) l)) =
      (oaNet (seenSys (seen num val) S G C) (fun n j => ofRes (seen num val) C (G n j)) (seen num val C)).map small := by
    rw [hnet, ← oaNet_seen S G hε hC hn hA hB hH, List.map_map]
    rfl
  rw [hnet2, ports_plain] at hr
  refine ⟨t, by unfold opampText; rw [hs]; exact ht, hr, ?_⟩
  rw [← oaNet_seen S G hε hC hn hA hB hH]
  intro l hl
  obtain ⟨k, hk, rfl⟩ := List.mem_map.1 hl
  exact (hok k hk).1.shape _

/-- The netlist in capital letters, for a circuit simulator that does not distinguish the case. -/
theorem loop_small_nodes {law : Law} {sol : Circuit.Spec.Sol} {p : Timing} {mid : ℝ} {net : List (Line ℝ)}
    {nodes : List String} {c : Def ℝ} {ds : List (Def ℝ)} {D : Def ℝ} (hs : ∀ l ∈ net, Shape l)
    (hn : ∀ a ∈ nodes, ∀ ch ∈ a.toList, FrontendText.okU ch = true) (hb : CaseBlind sol) :
    Loop law sol p mid (net.map small) (nodes.map fun a => plain a.toList) c ds D ↔ Loop law sol p mid net nodes c ds D := by
  have hp : pull sol = sol := by
    show Circuit.Spec.Sol.mk _ _ = _
    rw [funext hb.1, funext hb.2]
  have hob : ∀ l ∈ net, (Obeys law sol (small l) ↔ Obeys law sol l) := fun l hl => by
    rw [FrontendText.obeys_small (hs l hl), hp]
  have hk : ∀ a ∈ nodes, (Kirchhoff sol (net.map small) (plain a.toList) ↔ Kirchhoff sol net a) := by
    intro a ha
    have e := FrontendText.leaving_small hs sol (hn a ha)
    rw [hp] at e
    unfold Kirchhoff
    simp only [e]
  constructor
  · rintro ⟨a1, a2, a3, a4, a5, a6⟩
    exact ⟨a1, a2, a3, fun l hl => (hob l hl).mp (a4 _ (List.mem_map_of_mem hl)),
      fun a ha => (hk a ha).mp (a5 _ (List.mem_map_of_mem ha)), a6⟩
  · rintro ⟨a1, a2, a3, a4, a5, a6⟩
    refine ⟨a1, a2, a3, fun l hl => ?_, fun x hx => ?_, a6⟩
    · obtain ⟨k, hk, rfl⟩ := List.mem_map.mp hl
      exact (hob k hk).mpr (a4 k hk)
    · obtain ⟨a, ha, rfl⟩ := List.mem_map.mp hx
      exact (hk a ha).mpr (a5 a ha)

theorem plain_pairs (a a' : String) (N : ℕ) (h : a.toList.map Char.toLower = a'.toList) :
    ((List.range N).flatMap fun n => [fmt a n "_P", fmt a n "_N"]).map (fun s => plain s.toList) =
      (List.range N).flatMap fun n => [fmt a' n "_p", fmt a' n "_n"] := by
  rw [List.map_flatMap]
  congr 1
  funext n
  simp only [List.map_cons, List.map_nil]
  rw [FrontendText.plain_fmt a "_P" a' "_p" n h (by decide), FrontendText.plain_fmt a "_N" a' "_n" n h (by decide)]

theorem loop_small {law : Law} {sol : Circuit.Spec.Sol} {p : Timing} {mid : ℝ} {net : List (Line ℝ)} {N : ℕ}
    {c : Def ℝ} {ds : List (Def ℝ)} {D : Def ℝ} (hs : ∀ l ∈ net, Shape l) (hb : CaseBlind sol) :
    Loop law sol p mid (net.map small) (readGrounds N) c ds D ↔ Loop law sol p mid net (grounds N) c ds D := by
  rw [← loop_small_nodes hs _ hb, show readGrounds N = _ from (plain_pairs "VGND_" "vgnd_" N (by decide)).symm]
  · rfl
  · intro a ha
    obtain ⟨n, -, hn⟩ := List.mem_flatMap.mp ha
    simp only [List.mem_cons, List.not_mem_nil, or_false] at hn
    rcases hn with rfl | rfl
    · exact (FrontendText.node_ok "VGND_" "_P" n (by simp) (by simp)).2
    · exact (FrontendText.node_ok "VGND_" "_N" n (by simp) (by simp)).2

theorem close_rows {κ : ℝ} {N J : ℕ} {A' A : ℕ → ℕ → ℝ} (h : FrontendText.Close κ N J A' A) (X : ℝ) (hX : 0 ≤ X)
    (n : ℕ) (hn : n < N) : rowChange J A A' X n ≤ κ * ((∑ j ∈ Finset.range J, |A n j|) * X) ∧
      ∑ j ∈ Finset.range J, |A' n j| ≤ (1 + κ) * ∑ j ∈ Finset.range J, |A n j| := by
  constructor
  · unfold rowChange
    rw [← mul_assoc, Finset.mul_sum]
    exact mul_le_mul_of_nonneg_right (Finset.sum_le_sum fun j hj => h n hn j (Finset.mem_range.mp hj)) hX
  · rw [Finset.mul_sum]
    refine Finset.sum_le_sum fun j hj => ?_
    have h1 := h n hn j (Finset.mem_range.mp hj)
    have h2 := abs_sub_abs_le_abs_sub (A' n j) (A n j)
    linarith

/-- **C175.**  A circuit simulation of a test bench in which the op-amp frontend is what ngspice reads from the printed
text follows the package's own simulation of the given system up to a deviation to which the rounding of the printed
values contributes in every period; it gives the same decisions, and thus the same estimates, one call late, as long as
no observation of the simulation is too close to zero. -/
theorem C175_opamp_text_partial (S : Sys ℝ) (C : ℝ) (hC : C ≠ 0) (G GT : ℕ → ℕ → ℝ)
    (hG : S.Gamma = some G) (hGT : S.GammaT = some GT) (hM : S.M = S.Mt)
    (hAt : ∀ i < S.Mt, ∀ m < S.M, S.At i m = 0) (ε : ℝ) (hε : ε < 1) (hn : Near num val ε C)
    (hA : ∀ n < S.N, ∀ j < S.N, S.A n j ≠ 0 → Near num val ε (1 / (C * |S.A n j|)))
    (hB : ∀ n < S.N, ∀ l < S.L, S.B n l ≠ 0 → Near num val ε (1 / (C * |S.B n l|)))
    (hH : ∀ n < S.N, ∀ m < S.M, G n m ≠ 0 → Near num val ε (1 / (C * |G n m|)))
    (inputs : List TestBench.Signal) (T tt vdd : ℝ)
    (lines : List TestBench.SourceLine) (hlines : sourceLines ids inputs S.M T tt vdd = .ok lines) (htt : 0 < tt)
    (hT : 2 * tt ≤ T) (hvdd : 0 < vdd) :
    ∃ t body c ds D, opampText num isFloat ids S C = .ok t ∧
      readDef val t = some ("opamp_analog_frontend", ⟨readPorts S.L S.M, body⟩) ∧
      digitalControl ids S 0 (vdd / 2) = .ok (c, ds) ∧ clockedComparator ids = .ok D ∧
      ∀ (law : Law) (sol : Circuit.Spec.Sol) (v : String → ℝ → ℝ) (cfg : Cfg S.M) (st : ℕ → St S.M)
        (φ : ℕ → ℝ → ℕ → ℝ) (a g h E X U η κ : ℝ) (K : ℕ) (tEnd : ℝ) (raw : Raw) (time : ℕ → ℝ),
        (∀ v i, law "opamp" v i → IdealOpamp v i) → CaseBlind sol →
        Loop law sol (benchTiming T vdd) (vdd / 2) body (readGrounds S.N)
          (c.definition ids (controlPins S.N S.L S.M)) ds D →
        Holds lines v → Bench S inputs T tt vdd v sol cfg st → Run cfg st φ → κ = 1 / (1 - ε) ^ 2 - 1 →
        0 ≤ a → (∀ n < S.N, (1 + κ) * ∑ j ∈ Finset.range S.N, |S.A n j| ≤ a) →
        0 ≤ g → (∀ n < S.N, (1 + κ) * ∑ m ∈ Finset.range S.M, |G n m| ≤ g) →
        (∀ m < S.M, ∑ n ∈ Finset.range S.N, |GT m n| ≤ h) → 0 ≤ X → Within cfg φ X K →
        0 ≤ U → (∀ k t, ∀ l < S.L, |cfg.input k t l| ≤ U) → 0 ≤ η →
        (∀ n < S.N, κ * ((∑ j ∈ Finset.range S.N, |S.A n j|) * X + (∑ l ∈ Finset.range S.L, |S.B n l|) * U
          + ∑ m ∈ Finset.range S.M, |G n m|) ≤ η) →
        Starts S (benchTiming T vdd) sol cfg st g E →
        Clear S (benchTiming T vdd) cfg st h (mismatched a T g (T / 100) η E) K →
        Follows S (benchTiming T vdd) sol cfg st φ (mismatched a T g (T / 100) η E) K ∧
        (Recorded v T tEnd raw time → (∀ i < raw.n, ∀ m < S.M, raw.v i m = v (fmt "OUT" m "_P") (time i)) →
          (∀ k < K, k + 1 < ⌈tEnd / T⌉₊ → ∃ vec, call (Sim.next (size tEnd T) (vdd / 2) raw) .new (k + 1) = .ok vec ∧
            ∀ m : Fin S.M, vec m = signal (st (k + 1)).c m) ∧
          (0 < tEnd → SameEstimates (circuitSource S.M (size tEnd T) (vdd / 2) raw) (ownSource st)
            (min K (⌈tEnd / T⌉₊ - 1)))) := by
  obtain ⟨t, ht, hr, hshape⟩ := opamp_read (isFloat := isFloat) (ids := ids) S C hC G hG ε hε hn hA hB hH
  obtain ⟨c, ds, D, hc, hD, hf⟩ := follows_other ids S (vdd / 2) G GT hG hGT hM hAt
    (fun n j => ofRes (seen num val) C (S.A n j)) (fun n j => ofRes (seen num val) C (S.B n j))
    (fun n j => ofRes (seen num val) C (G n j))
  refine ⟨t, _, c, ds, D, ht, hr, hc, hD, ?_⟩
  intro law sol v cfg st φ a g h E X U η κ K tEnd raw time hop hbl hl hv bn hrun hκ ha hAa hg hGg hGTh hX0 hX hU0 hU hη
    hrow hst hcl
  have cA := FrontendText.seen_close hε hC hn hA
  have cB := FrontendText.seen_close hε hC hn hB
  have cG := FrontendText.seen_close hε hC hn hH
  rw [← hκ] at cA cB cG
  have hl' := (loop_small hshape hbl).mp hl
  have hC2 : seen num val C ≠ 0 := by
    obtain ⟨f, hf, f1, _⟩ := FrontendText.near_factor hC hn
    rw [hf]
    exact mul_ne_zero (by linarith) hC
  have hfol := hf law sol _ _ _ cfg st φ a g h E X U η K hl' (by
      unfold oaNet
      simp only [List.mem_append, List.mem_singleton]
      tauto) (by
      obtain ⟨s, hs, hstate⟩ := (C52_state_equation ids (seenSys (seen num val) S G C) (seen num val C) hC2).2 _ rfl
      obtain ⟨s', hs', hnet, -⟩ := opamp_netlist ids (seenSys (seen num val) S G C) _ rfl (seen num val C)
      rw [hs] at hs'
      cases hs'
      rw [hnet] at hstate
      refine hstate law sol hop hl'.devices fun n hn => ⟨hl'.nodes _ ?_, hl'.nodes _ ?_⟩
      · exact List.mem_flatMap.mpr ⟨n, List.mem_range.mpr hn, List.mem_cons_self⟩
      · exact List.mem_flatMap.mpr ⟨n, List.mem_range.mpr hn, List.mem_cons_of_mem _ List.mem_cons_self⟩)
    (bench_alike hlines htt hT hvdd hv hl.mid bn hrun) hrun ha
    (fun n hn => ((close_rows cA 0 le_rfl n hn).2).trans (hAa n hn)) hg
    (fun n hn => ((close_rows cG 0 le_rfl n hn).2).trans (hGg n hn)) hGTh hX hU hη
    (fun n hn => by
      have h1 := (close_rows cA X hX0 n hn).1
      have h2 := (close_rows cB U hU0 n hn).1
      have h3 := (close_rows cG 1 zero_le_one n hn).1
      have h4 := hrow n hn
      rw [mul_one] at h3
      linarith) hst (by rw [bn.period]; exact hcl)
  rw [bn.period] at hfol
  refine ⟨hfol, fun hrec hout => ?_⟩
  have hvec := bench_vectors hlines htt hT hvdd hv bn hrun _ K hfol tEnd raw time hrec hout
  refine ⟨hvec, fun hend => ?_⟩
  obtain ⟨vec, h0, -⟩ := (TestBench.C115_partial ids inputs S.M T tt vdd lines hlines v hv htt hT hvdd tEnd raw time
    hrec).1 hend
  exact same_estimates _ _ _ _ _ ⟨vec, h0⟩ fun k hk => hvec k (by omega) (by omega)

end

/-! ## A case -/

theorem low_low (c : Char) : c.toLower.toLower = c.toLower := by
  unfold Char.toLower
  split
  · next h1 =>
    have a1 : 65 ≤ c.toNat := by simpa using UInt32.le_iff_toNat_le.1 h1.1
    have a2 : c.toNat ≤ 90 := by simpa using UInt32.le_iff_toNat_le.1 h1.2
    rw [dif_neg]
    intro h2
    have a3 := UInt32.le_iff_toNat_le.1 h2.2
    simp [UInt32.toNat_add] at a3
    omega
  · rfl

theorem plain_plain (t : Text) : plain (plain t).toList = plain t := by
  unfold FrontendText.plain NetlistText.lower
  rw [String.toList_ofList, List.map_map]
  congr 1
  exact List.map_congr_left fun c _ => low_low c

/-- A circuit whose names are in capital letters, seen by a simulator that does not distinguish the case. -/
theorem blind_push (sol : Circuit.Spec.Sol) : CaseBlind (pull (push sol)) :=
  ⟨fun a => by
    show (push sol).v (plain (plain a.toList).toList) = (push sol).v (plain a.toList)
    rw [plain_plain],
  fun e => by
    show (push sol).i (plain (plain e.toList).toList) = (push sol).i (plain e.toList)
    rw [plain_plain]⟩

theorem loop_push_nodes {law : Law} {sol : Circuit.Spec.Sol} {p : Timing} {mid : ℝ} {net : List (Line ℝ)}
    {nodes : List String} {c : Def ℝ} {ds : List (Def ℝ)} {D : Def ℝ} (hs : ∀ l ∈ net, Shape l)
    (hn : ∀ a ∈ nodes, ∀ ch ∈ a.toList, FrontendText.okU ch = true) (hl : Loop law sol p mid net nodes c ds D) :
    Loop law (pull (push sol)) p mid (net.map small) (nodes.map fun a => plain a.toList) c ds D := by
  rw [loop_small_nodes hs hn (blind_push sol)]
  refine ⟨hl.control, hl.compare, hl.clocked, fun l h =>
    (FrontendText.obeys_small (hs l h) _ _).mp (FrontendText.obeys_push (hs l h) (hl.devices l h)), ?_, fun t => ?_⟩
  · intro a ha t
    have h := hl.nodes a ha t
    rw [← FrontendText.leaving_push hs sol (hn a ha) t, FrontendText.leaving_small hs _ (hn a ha) t] at h
    exact h
  · rw [FrontendText.push_v sol (FrontendText.supply_ok "VCM" (by simp)).2]
    exact hl.mid t

theorem loop_push {law : Law} {sol : Circuit.Spec.Sol} {p : Timing} {mid : ℝ} {net : List (Line ℝ)} {N : ℕ}
    {c : Def ℝ} {ds : List (Def ℝ)} {D : Def ℝ} (hs : ∀ l ∈ net, Shape l)
    (hl : Loop law sol p mid net (grounds N) c ds D) :
    Loop law (pull (push sol)) p mid (net.map small) (readGrounds N) c ds D := by
  rw [show readGrounds N = _ from (plain_pairs "VGND_" "vgnd_" N (by decide)).symm]
  refine loop_push_nodes hs (fun a ha => ?_) hl
  obtain ⟨n, -, hn⟩ := List.mem_flatMap.mp ha
  simp only [List.mem_cons, List.not_mem_nil, or_false] at hn
  rcases hn with rfl | rfl
  · exact (FrontendText.node_ok "VGND_" "_P" n (by simp) (by simp)).2
  · exact (FrontendText.node_ok "VGND_" "_N" n (by simp) (by simp)).2

theorem pushed (sol : Circuit.Spec.Sol) (a b : String) (n : ℕ) (ha : a ∈ ["IN", "X", "OUT", "S", "VGND_"])
    (hb : b ∈ ["_P", "_N"]) : (pull (push sol)).v (fmt a n b) = sol.v (fmt a n b) :=
  FrontendText.push_v sol (FrontendText.node_ok a b n ha hb).2

theorem bench_push {S : Sys ℝ} {inputs : List TestBench.Signal} {T tt vdd : ℝ} {v : String → ℝ → ℝ}
    {sol : Circuit.Spec.Sol} {cfg : Cfg S.M} {st : ℕ → St S.M} (hb : Bench S inputs T tt vdd v sol cfg st) :
    Bench S inputs T tt vdd v (pull (push sol)) cfg st := by
  refine ⟨hb.sys, hb.count, hb.hasInput, hb.steps, hb.offsets, hb.transition, hb.period, hb.delay, hb.start, hb.control,
    hb.signals, ?_, ?_, ?_, hb.rails⟩
  · rw [FrontendText.push_v sol (FrontendText.supply_ok "CLK" (by simp)).2]
    exact hb.clk
  · intro l hl t ht
    rw [pushed _ _ _ _ (by simp) (by simp), pushed _ _ _ _ (by simp) (by simp)]
    exact hb.ins l hl t ht
  · intro l hl t ht
    rw [pushed _ _ _ _ (by simp) (by simp), pushed _ _ _ _ (by simp) (by simp)]
    exact hb.outs l hl t ht

theorem starts_push {sol : Circuit.Spec.Sol} (hpot : sol.v = fun a t =>
      clockedPot (fun _ _ => 2) (fun _ _ => 2) (fun _ _ => 2) benchClock a t + 1) (g E : ℝ) (hE : E = 2 * g * (1 / 500)) :
    Starts loopEx (benchTiming 1 2) (pull (push sol)) benchCfg benchSt g E := by
  refine ⟨0, le_rfl, fun n _ => ?_, Or.inr (by rw [hE, zero_add]; rfl)⟩
  unfold diff
  rw [pushed _ _ _ _ (by simp) (by simp), pushed _ _ _ _ (by simp) (by simp), hpot]
  have := clockedPot_x (fun _ _ => 2) (fun _ _ => 2) (fun _ _ => 2) benchClock n (benchSt 0).t
  dsimp only
  rw [add_sub_add_right_eq_sub, this]
  norm_num [benchTiming, benchSt]

/-- Every value is printed as one. -/
def onePrinted (_ : ℝ) : Text := "1.000".toList

/-- One is read. -/
noncomputable def oneRead (t : Text) : Option ℝ := if t = "1.000".toList then some 1 else none

theorem near_printed {r : ℝ} (h1 : 9995 / 10000 ≤ r) (h2 : r ≤ 10005 / 10000) : Near onePrinted oneRead (1 / 1000) r := by
  refine ⟨by unfold onePrinted; decide, 1, by unfold onePrinted oneRead; rw [if_pos rfl], ?_⟩
  rw [abs_of_nonneg (by linarith : 0 ≤ r), abs_le]
  constructor <;> linarith

theorem seen_printed (r : ℝ) : seen onePrinted oneRead r = 1 := by
  unfold FrontendText.seen onePrinted oneRead
  rw [if_pos rfl]
  rfl

/-- The hypotheses of `C175_opamp_text_partial` are met with a capacitance of `1.0004` and resistances of `1/1.0004`,
which are printed with three decimals. -/
example : ∃ (sol : Circuit.Spec.Sol) (lines : List TestBench.SourceLine) (t : Text) (body : List (Line ℝ)),
    sourceLines (fun _ _ => "x") [.sinusoidal 0 1 0 1] loopEx.M 1 (1 / 4) 2 = .ok lines ∧ Holds lines benchV ∧
    opampText onePrinted (fun _ => true) (fun _ _ => "x") loopEx (10004 / 10000) = .ok t ∧
    readDef oneRead t = some ("opamp_analog_frontend", ⟨readPorts loopEx.L loopEx.M, body⟩) ∧
    (∃ law, ∀ l ∈ body, Obeys law sol l) ∧
    Bench loopEx [.sinusoidal 0 1 0 1] 1 (1 / 4) 2 benchV sol benchCfg benchSt ∧
    (∀ k < 2, ∃ vec, call (Sim.next (size 3 1) (2 / 2) (benchRaw benchV 13)) .new (k + 1) = .ok vec ∧ vec 0 = 1) ∧
    SameEstimates (circuitSource loopEx.M (size 3 1) (2 / 2) (benchRaw benchV 13)) (ownSource benchSt)
      (min 2 (⌈(3 : ℝ) / 1⌉₊ - 1)) := by
  obtain ⟨lines, hlines, hv⟩ := bench_sources
  have hn : Near onePrinted oneRead (1 / 1000) (10004 / 10000) := near_printed (by norm_num) (by norm_num)
  have hone : ∀ r : ℝ, |r| = 1 → Near onePrinted oneRead (1 / 1000) (1 / (10004 / 10000 * |r|)) := fun r hr => by
    rw [hr]
    exact near_printed (by norm_num) (by norm_num)
  have hA : ∀ n < loopEx.N, ∀ j < loopEx.N, loopEx.A n j ≠ 0 →
      Near onePrinted oneRead (1 / 1000) (1 / (10004 / 10000 * |loopEx.A n j|)) := fun n _ j _ h => absurd rfl h
  have hB : ∀ n < loopEx.N, ∀ l < loopEx.L, loopEx.B n l ≠ 0 →
      Near onePrinted oneRead (1 / 1000) (1 / (10004 / 10000 * |loopEx.B n l|)) := fun n _ j _ _ =>
    hone _ (by norm_num [loopEx])
  have hH : ∀ n < loopEx.N, ∀ m < loopEx.M, ((fun _ _ => -1 : ℕ → ℕ → ℝ) n m) ≠ 0 →
      Near onePrinted oneRead (1 / 1000) (1 / (10004 / 10000 * |(fun _ _ => -1 : ℕ → ℕ → ℝ) n m|)) := fun n _ j _ _ =>
    hone _ (by norm_num)
  obtain ⟨t, ht, hr, hshape⟩ := opamp_read (isFloat := fun _ => true) (ids := fun _ _ => "x") loopEx (10004 / 10000)
    (by norm_num) (fun _ _ => -1) rfl (1 / 1000) (by norm_num) hn hA hB hH
  obtain ⟨t', body, c', ds', D, ht', hr', hc', hD, h⟩ := C175_opamp_text_partial (isFloat := fun _ => true)
    (ids := fun _ _ => "x") loopEx (10004 / 10000) (by norm_num) (fun _ _ => -1) (fun _ _ => 1) rfl rfl rfl
    (fun _ _ _ _ => rfl) (1 / 1000) (by norm_num) hn hA hB hH _ 1 (1 / 4) 2 lines hlines (by norm_num) (by norm_num)
    (by norm_num)
  rw [ht] at ht'
  cases ht'
  rw [hr] at hr'
  cases hr'
  have e0 : ofRes (seen onePrinted oneRead) (10004 / 10000) 0 = 0 := if_pos rfl
  have e1 : ofRes (seen onePrinted oneRead) (10004 / 10000) 1 = 1 := by
    unfold FrontendText.ofRes
    rw [if_neg (by norm_num), if_neg (by norm_num), seen_printed, seen_printed]
    norm_num
  have e2 : ofRes (seen onePrinted oneRead) (10004 / 10000) (-1) = -1 := by
    unfold FrontendText.ofRes
    rw [if_neg (by norm_num), if_pos (by norm_num), seen_printed, seen_printed]
    norm_num
  have hsys : seenSys (seen onePrinted oneRead) loopEx (fun _ _ => -1) (10004 / 10000) = loopEx := by
    unfold FrontendText.seenSys loopEx
    simp only [e0, e1, e2]
  rw [hsys] at hr hshape h
  simp only [e2, seen_printed] at hr hshape h
  obtain ⟨f, c, ds, hf, hc, law, sol, hop, hl, hpot⟩ := loop_realisable_mid (fun _ _ => "x") loopEx 1 (2 / 2)
    (fun _ _ => -1) (fun _ _ => 1) rfl rfl rfl _ _ _ loop_state benchClock _ benchEx_comparator
  obtain ⟨f', hf', hnet, -⟩ := opamp_netlist (fun _ _ => "x") loopEx (fun _ _ => -1) rfl 1
  rw [hf] at hf'
  cases hf'
  rw [hc] at hc'
  cases hc'
  obtain rfl : D = clockedDef := Except.ok.inj (hD.symm.trans (clocked_def _))
  rw [div_self two_ne_zero] at hpot
  have hb := bench_bench sol hpot
  have htm : raisedTiming (2 / 2) ⟨0, 0, 1 / 1000, 1 / 1000, 1 / 100, -1, 1⟩ = benchTiming 1 2 := by
    norm_num [raisedTiming, benchTiming]
  rw [htm, hnet] at hl
  have hl2 := loop_push hshape hl
  have hb2 := bench_push hb
  have key := h law (pull (push sol)) benchV benchCfg benchSt benchPhi 0 (1 + (1 / (1 - 1 / 1000) ^ 2 - 1)) 1
    (2 * (1 + (1 / (1 - 1 / 1000) ^ 2 - 1)) * (1 / 500))
    (1 + 1 / 500) 1 (1 / 100) _ 2 3 (benchRaw benchV 13) (fun i => (i : ℕ) * (1 / 4)) hop (blind_push sol) hl2 hv hb2 bench_run rfl le_rfl
    (fun _ _ => by simp [loopEx]) (by norm_num) (fun _ _ => by norm_num [loopEx]) (fun _ _ => by norm_num [loopEx])
    (by norm_num) (bench_within 2) zero_le_one (fun _ _ _ _ => by norm_num [benchCfg]) (by norm_num)
    (fun _ _ => by norm_num [loopEx]) (starts_push hpot _ _ rfl) (by
      intro k hk y hy m hm
      obtain rfl : m = 0 := by
        have : m < 1 := hm
        omega
      obtain ⟨y', h1, -, h3⟩ := bench_obs k (contribution benchCfg.dc (benchSt k).c 0)
      obtain rfl : y = y' := Except.ok.inj (hy.symm.trans h1)
      have h4 : 1 ≤ |y.v 0| := h3.trans (le_abs_self _)
      interval_cases k <;> norm_num [mismatched, benchTiming] <;> linarith)
  obtain ⟨k1, k2⟩ := key.2 (bench_recorded benchV) fun _ _ _ _ => rfl
  refine ⟨pull (push sol), lines, t, _, hlines, hv, ht, hr, ⟨law, hl2.devices⟩, hb2, fun k hk => ?_, k2 (by norm_num)⟩
  obtain ⟨vec, h1, h2⟩ := k1 k hk (by rw [Nat.lt_ceil]; interval_cases k <;> norm_num)
  exact ⟨vec, h1, (h2 ⟨0, Nat.one_pos⟩).trans (by
    interval_cases k <;> simp [benchSt, signal])⟩

end Cbadc.ClosedLoop
