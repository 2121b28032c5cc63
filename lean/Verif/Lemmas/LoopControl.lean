import Verif.Spec.ClosedLoop
import Verif.Props.Comparator

/-! # The digital control of a frontend, seen from the frontend -/

namespace Cbadc.Circuit
open Cbadc.Circuit.Spec

/-- The definition printed for the digital control. -/
theorem control_definition (ids : String → ℕ → String) (S : Analog.Sys ℝ) (off : ℕ) (mid : ℝ)
    (GT : ℕ → ℕ → ℝ) (hG : S.GammaT = some GT) (hM : S.M - off = S.Mt) (c : Sub Obj ℝ) (ds : List (Def ℝ))
    (hc : digitalControl ids S off mid = .ok (c, ds)) :
    c.definition ids (controlPins S.N S.L S.M) = ⟨controlPins S.N S.L S.M, ctlNet S.N S.L S.M off⟩ := by
  obtain ⟨c', hc', hn⟩ := control_ok ids S off mid GT hG hM
  rw [hc] at hc'
  obtain ⟨rfl, -⟩ : c = c' ∧ _ := by
    injection hc' with h
    exact Prod.mk.inj h
  unfold Sub.definition
  rw [hn]
  congr 1
  have hform : ∀ c ∈ conns (digitalOps S.N S.L S.M S.Mt off : List (Op Obj ℝ)),
      (∃ (q : ℕ) (s : String), c = (.own s, .pin (fmt "Xmic_" q "") s)) ∨
      ∃ (q : ℕ) (i : ℕ), c = (.own "", .num (fmt "Xmic_" q "") i) := by
    intro c hc
    obtain ⟨i, -, s, -, rfl⟩ := (ctl_conns S.N S.L S.M S.Mt off c).mp hc
    exact Or.inl ⟨_, _, rfl⟩
  have hne : ∀ c ∈ conns (digitalOps S.N S.L S.M S.Mt off : List (Op Obj ℝ)), c.1.name ids ≠ "" := by
    intro c hc
    obtain ⟨i, -, s, hs, rfl⟩ := (ctl_conns S.N S.L S.M S.Mt off c).mp hc
    exact pins_ne S.N S.L S.M s hs
  have hown := hub_own mic_inj (fun _ s => s) (fun _ _ => "") ids _ hform hne
  have hw : c.wires = Wires.connects (Obj.name ids)
      (conns (digitalOps S.N S.L S.M S.Mt off : List (Op Obj ℝ))) .empty := by
    unfold digitalControl at hc
    rw [mapM_ok _ _ (fun i => coDef S GT (off + i) i mid)
      (fun i hi => co_def ids S _ _ mid GT hG (by rw [List.mem_range] at hi; omega))] at hc
    dsimp only at hc
    rw [if_neg (by omega)] at hc
    have hp : parts (digitalOps S.N S.L S.M S.Mt off : List (Op Obj ℝ)) = (List.range (S.M - off)).map fun i =>
        ⟨fmt "Xmic_" (off + i) "", .sub (fmt "multi_input_comparator_" (off + i) ""),
          (controlPins S.N S.L S.M).map (.pin (fmt "Xmic_" (off + i) ""))⟩ := by
      unfold digitalOps
      simp only [List.map_cons, List.map_nil, List.cons_append, List.nil_append, parts, parts_append,
        parts_flatMap, parts_map_add, flatMap_none, List.append_nil]
    have hnd : ((Sub.empty.parts ++ parts (digitalOps S.N S.L S.M S.Mt off : List (Op Obj ℝ))).map
        Part.inst).Nodup := by
      rw [show (Sub.empty : Sub Obj ℝ).parts = [] from rfl, List.nil_append, hp, List.map_map]
      refine List.Nodup.map ?_ List.nodup_range
      intro a b e
      have := mic_inj e
      omega
    rw [run_eq (Obj.name ids) _ .empty hnd] at hc
    injection hc with h
    obtain ⟨rfl, -⟩ := Prod.mk.inj h
    rfl
  rw [hw]
  conv_rhs => rw [← List.map_id (controlPins S.N S.L S.M)]
  exact List.map_congr_left fun s _ => hown s

/-- In a behaviour of a netlist with the digital control of a frontend, the controls at the terminals of the
frontend are decided by the observation at the last edge of the clock. -/
theorem loop_control (ids : String → ℕ → String) (S : Analog.Sys ℝ) (mid : ℝ)
    (GT : ℕ → ℕ → ℝ) (hG : S.GammaT = some GT) (hM : S.M = S.Mt) :
    ∃ c ds D, digitalControl ids S 0 mid = .ok (c, ds) ∧ clockedComparator ids = .ok D ∧
      ∀ (law : Law) (sol : Sol) (p : Timing) (net : List (Line ℝ)) (nodes : List String),
        Loop law sol p mid net nodes (c.definition ids (controlPins S.N S.L S.M)) ds D →
        ⟨"Xdc", .sub "digital_control", (controlPins S.N S.L S.M).map OaPart.ctl.hubPin⟩ ∈ net →
        ∀ e f n, Period p.hi (diff sol "CLK" "VCM") e f n → ∀ i < S.Mt,
          ∀ t, e + p.adc + p.dff + p.ramp < t → t ≤ n + p.adc + p.dff →
            (Around e (fun τ => p.hi < ∑ j ∈ Finset.range S.N, GT i j * diff sol (fmt "X" j "_P") (fmt "X" j "_N") τ
                + ∑ l ∈ Finset.range S.L, S.Bt i l * diff sol (fmt "IN" l "_P") (fmt "IN" l "_N") τ
                + ∑ m ∈ Finset.range S.M, S.At i m * diff sol (fmt "OUT" m "_P") (fmt "OUT" m "_N") τ) →
              diff sol (fmt "OUT" i "_P") (fmt "OUT" i "_N") t = p.high - p.low) ∧
            (Around e (fun τ => ∑ j ∈ Finset.range S.N, GT i j * diff sol (fmt "X" j "_P") (fmt "X" j "_N") τ
                + ∑ l ∈ Finset.range S.L, S.Bt i l * diff sol (fmt "IN" l "_P") (fmt "IN" l "_N") τ
                + ∑ m ∈ Finset.range S.M, S.At i m * diff sol (fmt "OUT" m "_P") (fmt "OUT" m "_N") τ < p.lo) →
              diff sol (fmt "OUT" i "_P") (fmt "OUT" i "_N") t = p.low - p.high) := by
  obtain ⟨c, ds, D, hc, hD, hdec⟩ := C128_control ids S 0 mid GT hG (by omega)
  refine ⟨c, ds, D, hc, hD, ?_⟩
  intro law sol p net nodes hl hmem e f n hper i hi t ht1 ht2
  have hdef := control_definition ids S 0 mid GT hG (by omega) c ds hc
  obtain ⟨so, ho, hp, -⟩ := hl.control _ _ (hl.devices _ hmem)
  rw [hdef] at ho hp
  have hpin : ∀ a ∈ controlPins S.N S.L S.M, so.v a = sol.v (OaPart.ctl.hubPin a) := by
    intro a ha
    obtain ⟨k, hk, rfl⟩ := List.getElem_of_mem ha
    have := (hp k hk).1
    dsimp only at this
    rw [this, List.getD_eq_getElem?_getD, List.getElem?_map, List.getElem?_eq_getElem hk]
    rfl
  have pvcm : so.v "VCM" = sol.v "VCM" := hpin _ ((cpins_mem _ _ _ _).mpr (by simp))
  have pclk : so.v "CLK" = sol.v "CLK" := hpin _ ((cpins_mem _ _ _ _).mpr (by simp))
  have px : ∀ j < S.N, diff so (fmt "X" j "_P") (fmt "X" j "_N") = diff sol (fmt "X" j "_P") (fmt "X" j "_N") := by
    intro j hj
    funext τ
    unfold diff
    rw [hpin _ ((cpins_mem _ _ _ _).mpr (Or.inr (Or.inl ⟨j, hj, Or.inl rfl⟩))),
      hpin _ ((cpins_mem _ _ _ _).mpr (Or.inr (Or.inl ⟨j, hj, Or.inr rfl⟩))), hubPin_x, hubPin_x]
  have pu : ∀ j < S.L, diff so (fmt "IN" j "_P") (fmt "IN" j "_N") = diff sol (fmt "IN" j "_P") (fmt "IN" j "_N") := by
    intro j hj
    funext τ
    unfold diff
    rw [hpin _ ((cpins_mem _ _ _ _).mpr (Or.inr (Or.inr (Or.inl ⟨j, hj, Or.inl rfl⟩)))),
      hpin _ ((cpins_mem _ _ _ _).mpr (Or.inr (Or.inr (Or.inl ⟨j, hj, Or.inr rfl⟩)))), hubPin_in, hubPin_in]
  have ps : ∀ j < S.M, diff so (fmt "S" j "_P") (fmt "S" j "_N") = diff sol (fmt "OUT" j "_P") (fmt "OUT" j "_N") := by
    intro j hj
    funext τ
    unfold diff
    rw [hpin _ ((cpins_mem _ _ _ _).mpr (Or.inr (Or.inr (Or.inr ⟨j, hj, Or.inl rfl⟩)))),
      hpin _ ((cpins_mem _ _ _ _).mpr (Or.inr (Or.inr (Or.inr ⟨j, hj, Or.inr rfl⟩)))), hubPin_s, hubPin_s]
  let y : ℝ → Analog.Vec ℝ := fun τ => ⟨S.Mt, fun i =>
    ∑ j ∈ Finset.range S.N, GT i j * diff so (fmt "X" j "_P") (fmt "X" j "_N") τ
      + ∑ l ∈ Finset.range S.L, S.Bt i l * diff so (fmt "IN" l "_P") (fmt "IN" l "_N") τ
      + ∑ m ∈ Finset.range S.M, S.At i m * diff so (fmt "S" m "_P") (fmt "S" m "_N") τ⟩
  have key := hdec law so p (fun k D hD v j hv => hl.compare k D hD v j (by rwa [zero_add] at hv))
    hl.clocked (by
      have := ho
      obtain ⟨c', hc', hn⟩ := control_ok ids S 0 mid GT hG (by omega)
      rw [hc] at hc'
      obtain ⟨rfl, -⟩ : c = c' ∧ _ := by
        injection hc' with h
        exact Prod.mk.inj h
      rw [hn]
      exact this) (fun τ => by rw [pvcm]; exact hl.mid τ) y (fun τ => by
      unfold Analog.Sys.controlObservation Analog.npDot
      rw [hG]
      dsimp only
      rw [if_neg (by simp), if_neg (by simp), if_neg (by simp)]
      rfl) e f n (by
      have : diff so "CLK" "VCM" = diff sol "CLK" "VCM" := by
        funext τ
        unfold diff
        rw [pvcm, pclk]
      rw [this]
      exact hper) i hi t ht1 ht2
  rw [zero_add, ps i (by omega)] at key
  have ey : ∀ τ, (y τ).v i = ∑ j ∈ Finset.range S.N, GT i j * diff sol (fmt "X" j "_P") (fmt "X" j "_N") τ
      + ∑ l ∈ Finset.range S.L, S.Bt i l * diff sol (fmt "IN" l "_P") (fmt "IN" l "_N") τ
      + ∑ m ∈ Finset.range S.M, S.At i m * diff sol (fmt "OUT" m "_P") (fmt "OUT" m "_N") τ := by
    intro τ
    dsimp only [y]
    rw [Finset.sum_congr rfl fun j hj => by rw [px j (Finset.mem_range.mp hj)],
      Finset.sum_congr (s₁ := Finset.range S.L) rfl fun j hj => by rw [pu j (Finset.mem_range.mp hj)],
      Finset.sum_congr (s₁ := Finset.range S.M) rfl fun j hj => by rw [ps j (Finset.mem_range.mp hj)]]
  simp only [ey] at key
  exact key

/-- The digital control draws no current from the states. -/
theorem loop_senses (ids : String → ℕ → String) (S : Analog.Sys ℝ) (mid : ℝ)
    (GT : ℕ → ℕ → ℝ) (hG : S.GammaT = some GT) (hM : S.M = S.Mt) (c : Sub Obj ℝ) (ds : List (Def ℝ))
    (hc : digitalControl ids S 0 mid = .ok (c, ds)) (law : Law)
    (hctl : ∀ v i, law "digital_control" v i → ObeysDef law (c.definition ids (controlPins S.N S.L S.M)) v i)
    (hcmp : ∀ k D, ds[k]? = some D → ∀ v i, law (fmt "multi_input_comparator_" k "") v i → ObeysDef law D v i) :
    ∀ v i, law "digital_control" v i → Senses S.N S.L S.M i := by
  intro v i hv k n p hk
  obtain ⟨so, ho, hp, -⟩ := hctl v i hv
  rw [control_definition ids S 0 mid GT hG (by omega) c ds hc] at ho hp
  obtain ⟨c', hc', -⟩ := control_ok ids S 0 mid GT hG (by omega)
  rw [hc] at hc'
  obtain ⟨-, hds⟩ : c = c' ∧ _ := by
    injection hc' with h
    exact Prod.mk.inj h
  obtain ⟨hk', ek⟩ := List.getElem?_eq_some_iff.mp hk
  have e := (hp k hk').2
  dsimp only at e
  rw [ek] at e
  rw [e]
  funext t
  show leaving so (ctlNet S.N S.L S.M 0) (fmt "X" n (sfx p)) t = 0
  unfold leaving
  apply List.sum_eq_zero
  intro z hz
  obtain ⟨l, hl, rfl⟩ := List.mem_map.mp hz
  have hob := ho l hl
  obtain ⟨j, hj, rfl⟩ := List.mem_map.mp hl
  have hj := List.mem_range.mp hj
  have hob' : law (fmt "multi_input_comparator_" j "") (fun k => so.v ((controlPins S.N S.L S.M).getD k ""))
      (so.i (fmt "Xmic_" (0 + j) "")) := by
    have h : law (fmt "multi_input_comparator_" (0 + j) "") _ _ := hob
    rw [zero_add] at h ⊢
    exact h
  obtain ⟨si, hi, hq, -⟩ := hcmp j (coDef S GT (0 + j) j mid) (by rw [hds]; simp [show j < S.M by omega]) _ _ hob'
  apply inflow_zero
  intro k' b hb ebx
  subst ebx
  obtain ⟨hk'', ek''⟩ := List.getElem?_eq_some_iff.mp hb
  have e' := (hq k' hk'').2
  change so.i (fmt "Xmic_" (0 + j) "") k' = leaving si (coDef S GT (0 + j) j mid).body (controlPins S.N S.L S.M)[k'] at e'
  change (controlPins S.N S.L S.M)[k'] = _ at ek''
  rw [ek''] at e'
  show so.i (fmt "Xmic_" (0 + j) "") k' t = 0
  rw [e']
  have h1 := (summer_iff law si S GT j mid).mp (hi _ List.mem_cons_self) t
  unfold leaving coDef
  simp only [List.map_cons, List.map_nil, List.sum_cons, List.sum_nil, add_zero]
  rw [inflow_notMem si _ t ⟨"Xcomp", _, _⟩ (by
    simp only [List.mem_cons, List.not_mem_nil, or_false, not_or]
    cases p <;> refine ⟨?_, ?_, ?_, ?_, ?_⟩ <;> intro h <;> simp only [sfx] at h <;> names at h), add_zero]
  apply inflow_zero
  intro k2 b hb ebx
  subst ebx
  refine h1.2 k2 ?_
  by_contra hlt
  dsimp only at hb
  rw [List.getElem?_append_right (by rw [pairs_length]; omega), List.getElem?_singleton] at hb
  split_ifs at hb
  injection hb with h
  cases p <;> simp only [sfx] at h <;> replace h := h.symm <;> names at h

end Cbadc.Circuit
