import Verif.Lemmas.FrontendText
import Verif.Lemmas.GmC

/-! # The printed text of the op-amp frontend -/

namespace Cbadc.FrontendText

open Cbadc.Circuit Cbadc.Circuit.Spec Cbadc.Cards
open Cbadc.NetlistText (Text)

variable {num : ℝ → Text} {val : Text → Option ℝ} {isFloat : Text → Bool} {ids : String → ℕ → String}

/-- a value of the netlist can be read -/
def Legible (num : ℝ → Text) (val : Text → Option ℝ) (r : ℝ) : Prop := Word (num r) ∧ (val (num r)).isSome

theorem Near.legible {ε r : ℝ} (h : Near num val ε r) : Legible num val r := by
  obtain ⟨h1, y, hy, _⟩ := h
  exact ⟨h1, by rw [hy]; rfl⟩

theorem suffix_ok : ∀ b ∈ ["_P", "_N"], ∀ c ∈ b.toList, okU c = true := by decide

/-- the names of nodes of the frontends -/
theorem node_ok (a b : String) (n : ℕ) (ha : a ∈ ["IN", "X", "OUT", "S", "VGND_"]) (hb : b ∈ ["_P", "_N"]) :
    NodeOk (fmt a n b) :=
  node_fmt a n b (by rintro rfl; exact absurd ha (by decide))
    ((by decide : ∀ a ∈ ["IN", "X", "OUT", "S", "VGND_"], ∀ c ∈ a.toList, okU c = true) a ha) (suffix_ok b hb)

theorem supply_ok : ∀ a ∈ ["VSS", "VDD", "CLK", "VCM"], NodeOk a := by
  intro a ha
  exact ⟨by rintro rfl; exact absurd ha (by decide),
    (by decide : ∀ a ∈ ["VSS", "VDD", "CLK", "VCM"], ∀ c ∈ a.toList, okU c = true) a ha⟩

theorem hubPin_supply : ∀ a ∈ ["VSS", "VDD", "CLK", "VCM"], OaPart.ctl.hubPin a = a := by
  intro a ha
  simp only [List.mem_cons, List.not_mem_nil, or_false] at ha
  rcases ha with rfl | rfl | rfl | rfl <;> rfl

/-- The control is connected to nodes that can be printed. -/
theorem control_ok (N L M : ℕ) : ∀ a ∈ (controlPins N L M).map OaPart.ctl.hubPin, NodeOk a := by
  intro a ha
  obtain ⟨s, hs, rfl⟩ := List.mem_map.1 ha
  unfold controlPins at hs
  simp only [List.mem_append, List.mem_map] at hs
  rcases hs with (((((hs | ⟨n, _, rfl⟩) | ⟨n, _, rfl⟩) | ⟨n, _, rfl⟩) | ⟨n, _, rfl⟩) | ⟨n, _, rfl⟩) | ⟨n, _, rfl⟩
  · rw [hubPin_supply s hs]; exact supply_ok s hs
  · rw [hubPin_x]; exact node_ok _ _ _ (by simp) (by simp)
  · rw [hubPin_x]; exact node_ok _ _ _ (by simp) (by simp)
  · rw [hubPin_in]; exact node_ok _ _ _ (by simp) (by simp)
  · rw [hubPin_in]; exact node_ok _ _ _ (by simp) (by simp)
  · rw [hubPin_s]; exact node_ok _ _ _ (by simp) (by simp)
  · rw [hubPin_s]; exact node_ok _ _ _ (by simp) (by simp)

theorem ports_ok (L M : ℕ) : ∀ p ∈ frontendPins L M, NodeOk p := by
  intro a hs
  unfold frontendPins at hs
  simp only [List.mem_append, List.mem_map] at hs
  rcases hs with (((hs | ⟨n, _, rfl⟩) | ⟨n, _, rfl⟩) | ⟨n, _, rfl⟩) | ⟨n, _, rfl⟩
  · exact supply_ok a hs
  all_goals exact node_ok _ _ _ (by simp) (by simp)

theorem resNet_ok (kd : Kind) (N J : ℕ) (F : ℕ → ℕ → ℝ) (C : ℝ)
    (hF : ∀ n < N, ∀ j < J, F n j ≠ 0 → Legible num val (1 / (C * |F n j|))) :
    ∀ l ∈ resNet kd N J F C, LineOk num val l ∧ ∀ g, l.dev ≠ .vccs g := by
  intro l hl
  unfold resNet at hl
  simp only [List.mem_flatMap, List.mem_range] at hl
  obtain ⟨n, hn, j, hj, hl⟩ := hl
  by_cases h0 : F n j ≠ 0
  · rw [if_pos h0] at hl
    have hv := hF n hn j hj h0
    have hk : kd.src ∈ ["IN", "X", "OUT", "S", "VGND_"] := by cases kd <;> simp [Kind.src]
    have hp : ∀ c ∈ kd.pre.toList, okL c = true := by cases kd <;> decide
    have hb1 : (if F n j < 0 then "_P" else "_N") ∈ ["_P", "_N"] := by split <;> simp
    have hb2 : (if F n j < 0 then "_N" else "_P") ∈ ["_P", "_N"] := by split <;> simp
    have hv' : Legible num val (1 / (1 * C * |F n j|)) := by rw [one_mul]; exact hv
    simp only [List.mem_cons, List.not_mem_nil, or_false] at hl
    rcases hl with rfl | rfl
    · refine ⟨⟨fun a ha => ?_, ?_⟩, fun g h => by cases h⟩
      · simp only [List.mem_cons, List.not_mem_nil, or_false] at ha
        rcases ha with rfl | rfl
        · exact node_ok _ _ _ hk (by simp)
        · exact node_ok _ _ _ (by simp) hb1
      · exact ⟨inst_fmt2 'R' "Rp_" _ n j ['p', '_'] (by decide) (by decide) hp, rfl, hv'.1, hv'.2⟩
    · refine ⟨⟨fun a ha => ?_, ?_⟩, fun g h => by cases h⟩
      · simp only [List.mem_cons, List.not_mem_nil, or_false] at ha
        rcases ha with rfl | rfl
        · exact node_ok _ _ _ hk (by simp)
        · exact node_ok _ _ _ (by simp) hb2
      · exact ⟨inst_fmt2 'R' "Rn_" _ n j ['n', '_'] (by decide) (by decide) hp, rfl, hv'.1, hv'.2⟩
  · rw [if_neg h0] at hl
    cases hl

theorem oaNet_ok (S : Analog.Sys ℝ) (G : ℕ → ℕ → ℝ) (C : ℝ) (hC : Legible num val C)
    (hA : ∀ n < S.N, ∀ j < S.N, S.A n j ≠ 0 → Legible num val (1 / (C * |S.A n j|)))
    (hB : ∀ n < S.N, ∀ j < S.L, S.B n j ≠ 0 → Legible num val (1 / (C * |S.B n j|)))
    (hG : ∀ n < S.N, ∀ j < S.M, G n j ≠ 0 → Legible num val (1 / (C * |G n j|))) :
    ∀ l ∈ oaNet S G C, LineOk num val l ∧ ∀ g, l.dev ≠ .vccs g := by
  intro l hl
  unfold oaNet at hl
  simp only [List.mem_append] at hl
  rcases hl with (((((hl | hl) | hl) | hl) | hl) | hl) | hl
  · rw [List.mem_singleton] at hl
    subst hl
    refine ⟨⟨control_ok _ _ _, ?_⟩, fun g h => by cases h⟩
    exact ⟨⟨['d', 'c'], (by decide : "Xdc".toList = 'X' :: ['d', 'c']), by decide⟩, by decide, by decide⟩
  · exact resNet_ok _ _ _ _ _ hB l hl
  · exact resNet_ok _ _ _ _ _ hA l hl
  · exact resNet_ok _ _ _ _ _ hG l hl
  · obtain ⟨n, _, rfl⟩ := List.mem_map.1 hl
    refine ⟨⟨fun a ha => ?_, ?_⟩, fun g h => by cases h⟩
    · simp only [List.mem_cons, List.not_mem_nil, or_false] at ha
      rcases ha with rfl | rfl | rfl | rfl | rfl | rfl | rfl
      · exact supply_ok _ (by simp)
      · exact supply_ok _ (by simp)
      · exact supply_ok _ (by simp)
      all_goals exact node_ok _ _ _ (by simp) (by simp)
    · exact ⟨inst_fmt 'X' "Xop_" n "" ['o', 'p', '_'] (by decide) (by decide) (by decide), by decide, by decide⟩
  · obtain ⟨n, _, rfl⟩ := List.mem_map.1 hl
    refine ⟨⟨fun a ha => ?_, ?_⟩, fun g h => by cases h⟩
    · simp only [List.mem_cons, List.not_mem_nil, or_false] at ha
      rcases ha with rfl | rfl
      all_goals exact node_ok _ _ _ (by simp) (by simp)
    · exact ⟨inst_fmt 'C' "Cp_" n "" ['p', '_'] (by decide) (by decide) (by decide), rfl, hC.1, hC.2⟩
  · obtain ⟨n, _, rfl⟩ := List.mem_map.1 hl
    refine ⟨⟨fun a ha => ?_, ?_⟩, fun g h => by cases h⟩
    · simp only [List.mem_cons, List.not_mem_nil, or_false] at ha
      rcases ha with rfl | rfl
      all_goals exact node_ok _ _ _ (by simp) (by simp)
    · exact ⟨inst_fmt 'C' "Cn_" n "" ['n', '_'] (by decide) (by decide) (by decide), rfl, hC.1, hC.2⟩

/-- The frontend's own terminals are printed under their own names. -/
theorem opamp_ports (S : Analog.Sys ℝ) (G : ℕ → ℕ → ℝ) (hG : S.Gamma = some G) (C : ℝ) {s : Sub Obj ℝ}
    (hs : opampFrontend ids S C = .ok s) (p : String) : s.wires.node (Obj.name ids) (.own p) = p := by
  have hnd : ((Sub.empty.parts ++ parts (opampOps S G C)).map Part.inst).Nodup := by
    change ((parts (opampOps S G C)).map Part.inst).Nodup
    rw [opamp_insts]
    exact (oaParts_nodup S G).map OaPart.inst_inj
  have hrun := run_eq (Obj.name ids) (opampOps S G C) .empty hnd
  unfold opampFrontend at hs
  rw [hG] at hs
  dsimp only at hs
  rw [hrun] at hs
  cases hs
  have hc := opamp_conns S G C
  refine hub_own OaPart.inst_inj OaPart.hubPin (OaPart.hubNum (negOf S G)) ids _ (fun c h => (hc c h).1) ?_ p
  intro d hd
  obtain ⟨s, h1, h2⟩ := (hc d hd).2
  rw [h1]
  exact h2

/-! ## Rounding -/

/-- The resistors of a group, read with errors, are those of other entries. -/
theorem resNet_seen (kd : Kind) (N J : ℕ) (F : ℕ → ℕ → ℝ) {ε C : ℝ} (hε : ε < 1) (hC : C ≠ 0) (h1 : Near num val ε C)
    (hF : ∀ n < N, ∀ j < J, F n j ≠ 0 → Near num val ε (1 / (C * |F n j|))) :
    (resNet kd N J F C).map (onLine (seen num val)) =
      resNet kd N J (fun n j => ofRes (seen num val) C (F n j)) (seen num val C) := by
  unfold resNet
  rw [List.map_flatMap]
  apply flatMap_congr_range
  intro n hn
  rw [List.map_flatMap]
  apply flatMap_congr_range
  intro j hj
  by_cases h0 : F n j ≠ 0
  · obtain ⟨e0, e1, e2, _⟩ := ofRes_spec hε hC h0 h1 (hF n hn j hj h0)
    rw [if_pos h0, if_pos e0]
    simp only [List.map_cons, List.map_nil, onLine, onDev, e2]
    by_cases hv : F n j < 0
    · rw [if_pos hv, if_pos hv, if_pos (e1.2 hv), if_pos (e1.2 hv)]
    · rw [if_neg hv, if_neg hv, if_neg (fun x => hv (e1.1 x)), if_neg (fun x => hv (e1.1 x))]
  · have e0 : ofRes (seen num val) C (F n j) = 0 := by
      unfold ofRes
      rw [if_pos (not_not.1 h0)]
    rw [if_neg h0, if_neg (not_not.2 e0)]
    rfl

/-- The system with the entries that are read. -/
noncomputable def seenSys (ρ : ℝ → ℝ) (S : Analog.Sys ℝ) (G : ℕ → ℕ → ℝ) (C : ℝ) : Analog.Sys ℝ :=
  { S with
    A := fun n j => ofRes ρ C (S.A n j)
    B := fun n j => ofRes ρ C (S.B n j)
    Gamma := some fun n j => ofRes ρ C (G n j) }

theorem oaNet_seen (S : Analog.Sys ℝ) (G : ℕ → ℕ → ℝ) {ε C : ℝ} (hε : ε < 1) (hC : C ≠ 0) (h1 : Near num val ε C)
    (hA : ∀ n < S.N, ∀ j < S.N, S.A n j ≠ 0 → Near num val ε (1 / (C * |S.A n j|)))
    (hB : ∀ n < S.N, ∀ j < S.L, S.B n j ≠ 0 → Near num val ε (1 / (C * |S.B n j|)))
    (hG : ∀ n < S.N, ∀ j < S.M, G n j ≠ 0 → Near num val ε (1 / (C * |G n j|))) :
    (oaNet S G C).map (onLine (seen num val)) =
      oaNet (seenSys (seen num val) S G C) (fun n j => ofRes (seen num val) C (G n j)) (seen num val C) := by
  unfold oaNet
  simp only [List.map_append, resNet_seen _ _ _ _ hε hC h1 hA, resNet_seen _ _ _ _ hε hC h1 hB,
    resNet_seen _ _ _ _ hε hC h1 hG, List.map_map, List.map_cons, List.map_nil]
  rfl

theorem seen_close {N J : ℕ} {F : ℕ → ℕ → ℝ} {ε C : ℝ} (hε : ε < 1) (hC : C ≠ 0) (h1 : Near num val ε C)
    (hF : ∀ n < N, ∀ j < J, F n j ≠ 0 → Near num val ε (1 / (C * |F n j|))) :
    Close (1 / (1 - ε) ^ 2 - 1) N J (fun n j => ofRes (seen num val) C (F n j)) F := by
  intro n hn j hj
  by_cases h0 : F n j = 0
  · have e0 : ofRes (seen num val) C (F n j) = 0 := by
      unfold ofRes
      rw [if_pos h0]
    show |ofRes (seen num val) C (F n j) - F n j| ≤ _
    rw [e0, h0]
    simp
  · exact (ofRes_spec hε hC h0 h1 (hF n hn j hj h0)).2.2.2

end Cbadc.FrontendText
