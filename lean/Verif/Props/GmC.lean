import Verif.Lemmas.GmC
import Verif.Props.OpAmp
import Mathlib.Tactic.NormNum

/-!
# C53: the Gm-C frontend integrates the state equation; C90: its DC gain
-/

namespace Cbadc.Circuit

open Spec

theorem state_name_inj {n m : ℕ} {p q : Bool} :
    fmt "X" n (sfx p) = fmt "X" m (sfx q) ↔ n = m ∧ p = q := by
  constructor
  · intro e
    cases p <;> cases q <;> simp only [sfx] at e <;> names at e <;> simp [e]
  · rintro ⟨rfl, rfl⟩
    rfl

/-- The current drawn from a state node by a group of transconductors. -/
theorem otaNet_leaving (law : Law) (sol : Sol) (k : ℕ) (kd : Kind) (J : ℕ) (F : ℕ → ℝ) (C : ℝ)
    (h : ∀ l ∈ otaNet k kd J F C, Obeys law sol l) (m : ℕ) (p : Bool) (t : ℝ) :
    leaving sol (otaNet k kd J F C) (fmt "X" m (sfx p)) t =
      if k = m then (if p then -1 else 1) * (C * ∑ j ∈ Finset.range J,
        F j * (sol.v (fmt kd.pin j "_P") t - sol.v (fmt kd.pin j "_N") t)) else 0 := by
  have key : ∀ j < J, leaving sol
      (if F j ≠ 0 then
        [⟨fmt2 kd.gpre k j, .vccs |F j * C|, [fmt "X" k "_P", fmt "X" k "_N",
          fmt kd.pin j (if F j * C < 0 then "_P" else "_N"),
          fmt kd.pin j (if F j * C < 0 then "_N" else "_P")]⟩]
      else []) (fmt "X" m (sfx p)) t =
      if k = m then (if p then -1 else 1) * (C *
        (F j * (sol.v (fmt kd.pin j "_P") t - sol.v (fmt kd.pin j "_N") t))) else 0 := by
    intro j hj
    by_cases h0 : F j ≠ 0
    · have ho : Obeys law sol ⟨fmt2 kd.gpre k j, .vccs |F j * C|, [fmt "X" k "_P", fmt "X" k "_N",
          fmt kd.pin j (if F j * C < 0 then "_P" else "_N"),
          fmt kd.pin j (if F j * C < 0 then "_N" else "_P")]⟩ := by
        apply h
        refine List.mem_flatMap.mpr ⟨j, List.mem_range.mpr hj, ?_⟩
        rw [if_pos h0]
        exact List.mem_singleton_self _
      obtain ⟨a0, a1, a2, a3⟩ := ho t
      simp only at a0 a1 a2 a3
      rw [if_pos h0, leaving_cons, leaving_nil, inflow_four, a2, a3, a1, a0]
      have eP : fmt "X" k "_P" = fmt "X" m (sfx p) ↔ k = m ∧ true = p :=
        state_name_inj (p := true)
      have eN : fmt "X" k "_N" = fmt "X" m (sfx p) ↔ k = m ∧ false = p :=
        state_name_inj (p := false)
      simp only [eP, eN]
      by_cases hkm : k = m
      · by_cases hn : F j * C < 0
        · rw [abs_of_neg hn]
          cases p <;> simp [hkm, hn] <;> ring
        · rw [abs_of_nonneg (not_lt.mp hn)]
          cases p <;> simp [hkm, hn] <;> ring
      · simp [hkm]
    · rw [if_neg h0, leaving_nil]
      push Not at h0
      rw [h0]
      simp
  unfold otaNet
  rw [leaving_flatMap]
  rw [Finset.sum_congr rfl (fun j hj => key j (Finset.mem_range.mp hj))]
  by_cases hkm : k = m
  · simp only [if_pos hkm]
    rw [Finset.mul_sum, Finset.mul_sum]
  · simp only [if_neg hkm]
    exact Finset.sum_const_zero

/-- The rate at which a finite gain discharges the states. -/
noncomputable def leak (b : ℝ) : Option ℝ → ℝ
  | none => 0
  | some g => b / (4 * g)

theorem gainNet_leaving (law : Law) (sol : Sol) (k : ℕ) (b C : ℝ) (gain : Option ℝ)
    (h : ∀ l ∈ gainNet k b C gain, Obeys law sol l) (m : ℕ) (p : Bool) (t : ℝ) :
    leaving sol (gainNet k b C gain) (fmt "X" m (sfx p)) t =
      if k = m then 2 * C * leak b gain * (sol.v (fmt "X" m (sfx p)) t - sol.v "VCM" t) else 0 := by
  rcases gain with _ | g
  · simp [gainNet, leaving_nil, leak]
  · have o1 := h _ List.mem_cons_self t
    have o2 := h _ (List.mem_cons_of_mem _ (List.mem_singleton_self _)) t
    obtain ⟨a0, a1⟩ := o1
    obtain ⟨b0, b1⟩ := o2
    simp only at a0 a1 b0 b1
    have eV : "VCM" ≠ fmt "X" m (sfx p) := by
      intro e; names at e
    have eP : fmt "X" k "_P" = fmt "X" m (sfx p) ↔ k = m ∧ true = p := state_name_inj (p := true)
    have eN : fmt "X" k "_N" = fmt "X" m (sfx p) ↔ k = m ∧ false = p := state_name_inj (p := false)
    unfold gainNet
    rw [leaving_cons, leaving_cons, leaving_nil, inflow_two, inflow_two, if_neg eV, if_neg eV, b1, a0,
      b0]
    simp only [eP, eN]
    by_cases hkm : k = m
    · subst hkm
      have e : ∀ y : ℝ, y / (2 * (g / (b * C))) = 2 * C * (b / (4 * g)) * y := by
        intro y
        rw [div_eq_mul_inv y, mul_inv, inv_div, div_eq_mul_inv, div_eq_mul_inv, mul_inv]
        ring
      cases p
      · simp only [leak, e]
        simp [sfx]
        ring
      · simp only [leak, e]
        simp [sfx]
    · simp [hkm]

/-- What a row of the state equation adds up to inside a transconductor. -/
noncomputable def rowSum (S : Analog.Sys ℝ) (G : ℕ → ℕ → ℝ) (k : ℕ) (x u s : ℕ → ℝ) : ℝ :=
  ∑ j ∈ Finset.range S.N, S.A k j * x j + ∑ j ∈ Finset.range S.L, S.B k j * u j
    + ∑ j ∈ Finset.range S.M, G k j * s j

theorem moNet_leaving (law : Law) (sol : Sol) (S : Analog.Sys ℝ) (G : ℕ → ℕ → ℝ) (k : ℕ) (C : ℝ)
    (gain : Option ℝ) (h : ∀ l ∈ moNet S G k C gain, Obeys law sol l) (m : ℕ) (p : Bool) (t : ℝ) :
    leaving sol (moNet S G k C gain) (fmt "X" m (sfx p)) t =
      if k = m then
        (if p then -1 else 1) * (C * rowSum S G k
          (fun j => sol.v (fmt "X" j "_P") t - sol.v (fmt "X" j "_N") t)
          (fun j => sol.v (fmt "IN" j "_P") t - sol.v (fmt "IN" j "_N") t)
          (fun j => sol.v (fmt "S" j "_P") t - sol.v (fmt "S" j "_N") t))
        + 2 * C * leak (absMax S.N S.L S.B) gain * (sol.v (fmt "X" m (sfx p)) t - sol.v "VCM" t)
      else 0 := by
  unfold moNet at h ⊢
  simp only [List.mem_append, or_imp, forall_and] at h
  obtain ⟨⟨⟨hA, hB⟩, hG⟩, hR⟩ := h
  rw [leaving_append, leaving_append, leaving_append, otaNet_leaving law sol _ _ _ _ _ hA,
    otaNet_leaving law sol _ _ _ _ _ hB, otaNet_leaving law sol _ _ _ _ _ hG,
    gainNet_leaving law sol _ _ _ _ hR]
  by_cases hkm : k = m
  · simp only [if_pos hkm, Kind.pin, rowSum]
    ring
  · simp only [if_neg hkm]
    ring

/-! ### The frontend -/

theorem hubPin_state {N L M m : ℕ} {p : Bool} {s : String} (hs : s ∈ multiOtaPins N L M)
    (e : OaPart.ctl.hubPin s = fmt "X" m (sfx p)) : s = fmt "X" m (sfx p) := by
  rcases (pins_mem N L M s).mp hs with rfl | rfl | rfl | ⟨n, hn, q, rfl⟩ | ⟨n, hn, q, rfl⟩ |
    ⟨n, hn, q, rfl⟩
  · rw [show OaPart.ctl.hubPin "VSS" = "VSS" by decide] at e; names at e
  · rw [show OaPart.ctl.hubPin "VDD" = "VDD" by decide] at e; names at e
  · rw [show OaPart.ctl.hubPin "VCM" = "VCM" by decide] at e; names at e
  · rw [hubPin_x] at e; exact e
  · rw [hubPin_in] at e; names at e
  · rw [hubPin_s] at e; names at e

theorem pins_nodup (N L M : ℕ) : (multiOtaPins N L M).Nodup := by
  have nd : ∀ (a b : String) (J : ℕ), ((List.range J).map (fmt a · b)).Nodup := by
    intro a b J
    apply List.nodup_range.map
    intro i j e
    unfold fmt at e
    have h := congrArg String.toList e
    simp only [String.toList_append, List.append_cancel_left_eq, List.append_cancel_right_eq] at h
    simpa [digits_inj] using h
  have h3 : ["VSS", "VDD", "VCM"].Nodup := by decide
  unfold multiOtaPins
  simp only [List.nodup_append, List.mem_append, List.mem_map, List.mem_range, List.mem_cons,
    List.not_mem_nil, or_false]
  refine ⟨⟨⟨⟨⟨⟨h3, nd _ _ _, ?_⟩, nd _ _ _, ?_⟩, nd _ _ _, ?_⟩, nd _ _ _, ?_⟩, nd _ _ _, ?_⟩,
    nd _ _ _, ?_⟩
  all_goals
    intro a ha b hb e
    subst e
    obtain ⟨j, _, hb⟩ := hb
    subst hb
    rcases ha with ha
    clear nd h3
  · rcases ha with ha | ha | ha <;> names at ha
  · rcases ha with (ha | ha | ha) | ⟨i, _, ha⟩ <;> names at ha
  · rcases ha with ((ha | ha | ha) | ⟨i, _, ha⟩) | ⟨i, _, ha⟩ <;> names at ha
  · rcases ha with (((ha | ha | ha) | ⟨i, _, ha⟩) | ⟨i, _, ha⟩) | ⟨i, _, ha⟩ <;> names at ha
  · rcases ha with ((((ha | ha | ha) | ⟨i, _, ha⟩) | ⟨i, _, ha⟩) | ⟨i, _, ha⟩) | ⟨i, _, ha⟩ <;>
      names at ha
  · rcases ha with (((((ha | ha | ha) | ⟨i, _, ha⟩) | ⟨i, _, ha⟩) | ⟨i, _, ha⟩) | ⟨i, _, ha⟩) |
      ⟨i, _, ha⟩ <;> names at ha

/-- A sum over a list without repetitions in which one element counts. -/
theorem sum_single {α : Type*} [DecidableEq α] (l : List α) (hl : l.Nodup) (a : α) (f : α → ℝ) :
    (l.map fun x => if x = a then f x else 0).sum = if a ∈ l then f a else 0 := by
  induction l with
  | nil => simp
  | cons x xs ih =>
    rw [List.nodup_cons] at hl
    rw [List.map_cons, List.sum_cons, ih hl.2]
    by_cases h : x = a
    · subst h
      simp [hl.1]
    · have : a ≠ x := fun e => h e.symm
      simp [h, this]

/-- The current into a sub-circuit from a state node is the current its body draws there. -/
theorem sub_inflow (sol : Sol) (e : String) (d : Device ℝ) (N L M m : ℕ) (hm : m < N) (p : Bool)
    (t : ℝ) (cur : String → ℝ) (hc : ∀ k (h : k < (multiOtaPins N L M).length),
      sol.i e k t = cur (multiOtaPins N L M)[k]) :
    inflow sol (fmt "X" m (sfx p)) t ⟨e, d, (multiOtaPins N L M).map OaPart.ctl.hubPin⟩ =
      cur (fmt "X" m (sfx p)) := by
  have e1 : inflow sol (fmt "X" m (sfx p)) t ⟨e, d, (multiOtaPins N L M).map OaPart.ctl.hubPin⟩ =
      ((multiOtaPins N L M).map fun s => if s = fmt "X" m (sfx p) then cur s else 0).sum := by
    unfold inflow
    dsimp only
    congr 1
    apply List.ext_getElem
    · simp
    · intro k h1 h2
      have hk : k < (multiOtaPins N L M).length := by simpa using h1
      rw [List.getElem_mapIdx, List.getElem_map, List.getElem_map, hc k hk]
      have hmem : (multiOtaPins N L M)[k] ∈ multiOtaPins N L M := List.getElem_mem hk
      by_cases h : (multiOtaPins N L M)[k] = fmt "X" m (sfx p)
      · rw [if_pos h, if_pos (by rw [h, hubPin_x])]
      · rw [if_neg h, if_neg (fun e => h (hubPin_state hmem e))]
  rw [e1, sum_single _ (pins_nodup N L M), if_pos]
  exact (pins_mem N L M _).mpr (Or.inr (Or.inr (Or.inr (Or.inl ⟨m, hm, p, rfl⟩))))

theorem ctlPin_state {N L M m : ℕ} {p : Bool} {s : String} (hs : s ∈ controlPins N L M)
    (e : OaPart.ctl.hubPin s = fmt "X" m (sfx p)) : s = fmt "X" m (sfx p) := by
  simp only [controlPins, List.mem_append, List.mem_cons, List.not_mem_nil, or_false, List.mem_map,
    List.mem_range] at hs
  rcases hs with ((((((rfl | rfl | rfl | rfl) | ⟨n, hn, rfl⟩) | ⟨n, hn, rfl⟩) | ⟨n, hn, rfl⟩) |
    ⟨n, hn, rfl⟩) | ⟨n, hn, rfl⟩) | ⟨n, hn, rfl⟩
  · rw [show OaPart.ctl.hubPin "VSS" = "VSS" by decide] at e; names at e
  · rw [show OaPart.ctl.hubPin "VDD" = "VDD" by decide] at e; names at e
  · rw [show OaPart.ctl.hubPin "CLK" = "CLK" by decide] at e; names at e
  · rw [show OaPart.ctl.hubPin "VCM" = "VCM" by decide] at e; names at e
  · rw [hubPin_x] at e; exact e
  · rw [hubPin_x] at e; exact e
  · rw [hubPin_in] at e; names at e
  · rw [hubPin_in] at e; names at e
  · rw [hubPin_s] at e; names at e
  · rw [hubPin_s] at e; names at e

/-- The control of a system with the given sizes senses the states without drawing current from
them. -/
def Senses (N L M : ℕ) (i : ℕ → ℝ → ℝ) : Prop :=
  ∀ (k n : ℕ) (p : Bool), (controlPins N L M)[k]? = some (fmt "X" n (sfx p)) → i k = 0

theorem mapM_ok {α β : Type} (l : List α) (f : α → Res β) (g : α → β) (h : ∀ a ∈ l, f a = .ok (g a)) :
    l.mapM f = .ok (l.map g) := by
  induction l with
  | nil => rfl
  | cons a l ih =>
    rw [List.mapM_cons, h a List.mem_cons_self, ih fun b hb => h b (List.mem_cons_of_mem _ hb)]
    rfl

/-- The current drawn from a state node of the Gm-C frontend. -/
theorem gmNet_leaving (S : Analog.Sys ℝ) (G : ℕ → ℕ → ℝ) (C : ℝ) (gain : Option ℝ)
    (law : Law) (sol : Sol)
    (hctl : ∀ v i, law "digital_control" v i → Senses S.N S.L S.M i)
    (hsub : ∀ n < S.N, ∀ v i, law (fmt "multi_input_ota_" n "") v i →
      ObeysDef law ⟨multiOtaPins S.N S.L S.M, moNet S G n C gain⟩ v i)
    (hob : ∀ l ∈ gmNet S.N S.L S.M C, Obeys law sol l)
    (n : ℕ) (hn : n < S.N) (p : Bool) (t : ℝ) :
    ∃ d, HasDerivAt (fun z => sol.v (fmt "X" n (sfx p)) z - sol.v "VCM" z) d t ∧
      leaving sol (gmNet S.N S.L S.M C) (fmt "X" n (sfx p)) t =
        (if p then -1 else 1) * (C * rowSum S G n
          (fun j => diff sol (fmt "X" j "_P") (fmt "X" j "_N") t)
          (fun j => diff sol (fmt "IN" j "_P") (fmt "IN" j "_N") t)
          (fun j => diff sol (fmt "OUT" j "_P") (fmt "OUT" j "_N") t))
        + 2 * C * leak (absMax S.N S.L S.B) gain * (sol.v (fmt "X" n (sfx p)) t - sol.v "VCM" t)
        + 2 * C * d := by
  -- the lines of the netlist
  have line : ∀ m < S.N, ∀ l, l ∈ ([⟨fmt "Xgm" m "", .sub (fmt "multi_input_ota_" m ""),
        (multiOtaPins S.N S.L S.M).map OaPart.ctl.hubPin⟩,
       ⟨fmt "Cp_" m "", .cap (2 * C), [fmt "X" m "_P", "VCM"]⟩,
       ⟨fmt "Cn_" m "", .cap (2 * C), ["VCM", fmt "X" m "_N"]⟩] : List (Line ℝ)) → Obeys law sol l := by
    intro m hm l hl
    apply hob
    unfold gmNet
    exact List.mem_cons_of_mem _ (List.mem_flatMap.mpr ⟨m, List.mem_range.mpr hm, hl⟩)
  have hV : ∀ m (p : Bool), "VCM" ≠ fmt "X" m (sfx p) := by
    intro m p e; names at e
  -- the control
  have z1 : ∀ p, inflow sol (fmt "X" n (sfx p)) t ⟨"Xdc", .sub "digital_control",
      (controlPins S.N S.L S.M).map OaPart.ctl.hubPin⟩ = 0 := by
    intro p
    have h0 : Obeys law sol ⟨"Xdc", .sub "digital_control",
        (controlPins S.N S.L S.M).map OaPart.ctl.hubPin⟩ :=
      hob _ (by unfold gmNet; exact List.mem_cons_self)
    have hs := hctl _ _ h0
    apply inflow_zero
    intro k b hb e
    dsimp only at hb
    rw [List.getElem?_map, Option.map_eq_some_iff] at hb
    obtain ⟨s, h1, h2⟩ := hb
    rw [e] at h2
    have := ctlPin_state (List.mem_of_getElem? h1) h2
    rw [this] at h1
    exact congrFun (hs k n p h1) t
  -- a transconductor
  have z2 : ∀ m < S.N, ∀ p, inflow sol (fmt "X" n (sfx p)) t ⟨fmt "Xgm" m "",
      .sub (fmt "multi_input_ota_" m ""), (multiOtaPins S.N S.L S.M).map OaPart.ctl.hubPin⟩ =
      if m = n then
        (if p then -1 else 1) * (C * rowSum S G m
          (fun j => diff sol (fmt "X" j "_P") (fmt "X" j "_N") t)
          (fun j => diff sol (fmt "IN" j "_P") (fmt "IN" j "_N") t)
          (fun j => diff sol (fmt "OUT" j "_P") (fmt "OUT" j "_N") t))
        + 2 * C * leak (absMax S.N S.L S.B) gain * (sol.v (fmt "X" n (sfx p)) t - sol.v "VCM" t)
      else 0 := by
    intro m hm p
    obtain ⟨so, ho, hp, _⟩ := hsub m hm _ _ (line m hm _ List.mem_cons_self)
    rw [sub_inflow sol _ _ S.N S.L S.M n hn p t (fun s => leaving so (moNet S G m C gain) s t)
      (fun k h => congrFun (hp k h).2 t), moNet_leaving law so S G m C gain ho]
    have hpin : ∀ s ∈ multiOtaPins S.N S.L S.M, so.v s = sol.v (OaPart.ctl.hubPin s) := by
      intro s hs
      obtain ⟨k, hk, e⟩ := List.getElem_of_mem hs
      have := (hp k hk).1
      dsimp only at this
      rw [e, List.getD_eq_getElem?_getD, List.getElem?_map, List.getElem?_eq_getElem hk, e] at this
      exact this
    have mx : ∀ j < S.N, ∀ q, fmt "X" j (sfx q) ∈ multiOtaPins S.N S.L S.M := fun j hj q =>
      (pins_mem _ _ _ _).mpr (Or.inr (Or.inr (Or.inr (Or.inl ⟨j, hj, q, rfl⟩))))
    have mi : ∀ j < S.L, ∀ q, fmt "IN" j (sfx q) ∈ multiOtaPins S.N S.L S.M := fun j hj q =>
      (pins_mem _ _ _ _).mpr (Or.inr (Or.inr (Or.inr (Or.inr (Or.inl ⟨j, hj, q, rfl⟩)))))
    have ms : ∀ j < S.M, ∀ q, fmt "S" j (sfx q) ∈ multiOtaPins S.N S.L S.M := fun j hj q =>
      (pins_mem _ _ _ _).mpr (Or.inr (Or.inr (Or.inr (Or.inr (Or.inr ⟨j, hj, q, rfl⟩)))))
    have vx : ∀ j < S.N, ∀ q, so.v (fmt "X" j (sfx q)) = sol.v (fmt "X" j (sfx q)) := by
      intro j hj q
      rw [hpin _ (mx j hj q), hubPin_x]
    have vi : ∀ j < S.L, ∀ q, so.v (fmt "IN" j (sfx q)) = sol.v (fmt "IN" j (sfx q)) := by
      intro j hj q
      rw [hpin _ (mi j hj q), hubPin_in]
    have vs : ∀ j < S.M, ∀ q, so.v (fmt "S" j (sfx q)) = sol.v (fmt "OUT" j (sfx q)) := by
      intro j hj q
      rw [hpin _ (ms j hj q), hubPin_s]
    have vc : so.v "VCM" = sol.v "VCM" := by
      rw [hpin _ ((pins_mem _ _ _ _).mpr (Or.inr (Or.inr (Or.inl rfl))))]
      rw [show OaPart.ctl.hubPin "VCM" = "VCM" by decide]
    by_cases hmn : m = n
    · rw [if_pos hmn, if_pos hmn, vx n hn, vc]
      congr 1
      congr 1
      congr 1
      unfold rowSum
      congr 1
      · congr 1
        · apply Finset.sum_congr rfl
          intro j hj
          have h1 : so.v (fmt "X" j "_P") = sol.v (fmt "X" j "_P") :=
            vx j (Finset.mem_range.mp hj) true
          have h2 : so.v (fmt "X" j "_N") = sol.v (fmt "X" j "_N") :=
            vx j (Finset.mem_range.mp hj) false
          simp [diff, h1, h2]
        · apply Finset.sum_congr rfl
          intro j hj
          have h1 : so.v (fmt "IN" j "_P") = sol.v (fmt "IN" j "_P") :=
            vi j (Finset.mem_range.mp hj) true
          have h2 : so.v (fmt "IN" j "_N") = sol.v (fmt "IN" j "_N") :=
            vi j (Finset.mem_range.mp hj) false
          simp [diff, h1, h2]
      · apply Finset.sum_congr rfl
        intro j hj
        have h1 : so.v (fmt "S" j "_P") = sol.v (fmt "OUT" j "_P") :=
          vs j (Finset.mem_range.mp hj) true
        have h2 : so.v (fmt "S" j "_N") = sol.v (fmt "OUT" j "_N") :=
          vs j (Finset.mem_range.mp hj) false
        simp [diff, h1, h2]
    · rw [if_neg hmn, if_neg hmn]
  -- the capacitors
  obtain ⟨dp, hdp, cp0, cp1⟩ := line n hn _ (List.mem_cons_of_mem _ List.mem_cons_self) t
  obtain ⟨dn, hdn, cn0, cn1⟩ := line n hn _
    (List.mem_cons_of_mem _ (List.mem_cons_of_mem _ List.mem_cons_self)) t
  simp only at cp0 cp1 cn0 cn1
  have total : ∀ p, leaving sol (gmNet S.N S.L S.M C) (fmt "X" n (sfx p)) t =
      (if p then -1 else 1) * (C * rowSum S G n
          (fun j => diff sol (fmt "X" j "_P") (fmt "X" j "_N") t)
          (fun j => diff sol (fmt "IN" j "_P") (fmt "IN" j "_N") t)
          (fun j => diff sol (fmt "OUT" j "_P") (fmt "OUT" j "_N") t))
        + 2 * C * leak (absMax S.N S.L S.B) gain * (sol.v (fmt "X" n (sfx p)) t - sol.v "VCM" t)
        + (if p then 2 * C * dp else -(2 * C * dn)) := by
    intro p
    have eP : ∀ m, fmt "X" m "_P" = fmt "X" n (sfx p) ↔ m = n ∧ true = p :=
      fun m => state_name_inj (p := true)
    have eN : ∀ m, fmt "X" m "_N" = fmt "X" n (sfx p) ↔ m = n ∧ false = p :=
      fun m => state_name_inj (p := false)
    unfold gmNet
    rw [leaving_cons, z1, leaving_flatMap, Finset.sum_eq_single n]
    · rw [leaving_cons, leaving_cons, leaving_cons, leaving_nil, z2 n hn, inflow_two, inflow_two,
        if_neg (hV n p), if_neg (hV n p), if_pos rfl, cp0, cn1, cn0]
      simp only [eP, eN]
      cases p <;> simp
    · intro m hm hmn
      rw [leaving_cons, leaving_cons, leaving_cons, leaving_nil, z2 m (Finset.mem_range.mp hm),
        inflow_two, inflow_two, if_neg (hV n p), if_neg (hV n p), if_neg hmn]
      simp [eP, eN, hmn]
    · intro h'
      exact absurd (Finset.mem_range.mpr hn) h'
  cases p
  · refine ⟨-dn, (hdn.neg).congr_of_eventuallyEq (Filter.Eventually.of_forall ?_), ?_⟩
    · intro z
      simp [sfx]
    · rw [total]
      simp
  · exact ⟨dp, hdp, total true⟩

/-- The behaviour of the Gm-C frontend, with ideal transconductors or with finite gain. -/
theorem gmc_behaviour (S : Analog.Sys ℝ) (G : ℕ → ℕ → ℝ) (C : ℝ) (hC : C ≠ 0) (gain : Option ℝ)
    (law : Law) (sol : Sol)
    (hctl : ∀ v i, law "digital_control" v i → Senses S.N S.L S.M i)
    (hsub : ∀ n < S.N, ∀ v i, law (fmt "multi_input_ota_" n "") v i →
      ObeysDef law ⟨multiOtaPins S.N S.L S.M, moNet S G n C gain⟩ v i)
    (hob : ∀ l ∈ gmNet S.N S.L S.M C, Obeys law sol l)
    (hk : ∀ n < S.N, Kirchhoff sol (gmNet S.N S.L S.M C) (fmt "X" n "_P") ∧
      Kirchhoff sol (gmNet S.N S.L S.M C) (fmt "X" n "_N")) (n : ℕ) (hn : n < S.N) (t : ℝ) :
    HasDerivAt (diff sol (fmt "X" n "_P") (fmt "X" n "_N"))
      (rowSum S G n (fun j => diff sol (fmt "X" j "_P") (fmt "X" j "_N") t)
        (fun j => diff sol (fmt "IN" j "_P") (fmt "IN" j "_N") t)
        (fun j => diff sol (fmt "OUT" j "_P") (fmt "OUT" j "_N") t)
        - leak (absMax S.N S.L S.B) gain * diff sol (fmt "X" n "_P") (fmt "X" n "_N") t) t := by
  obtain ⟨dp, hdp, ep⟩ := gmNet_leaving S G C gain law sol hctl hsub hob n hn true t
  obtain ⟨dn, hdn, en⟩ := gmNet_leaving S G C gain law sol hctl hsub hob n hn false t
  have kp : leaving sol (gmNet S.N S.L S.M C) (fmt "X" n (sfx true)) t = 0 := (hk n hn).1 t
  have kn : leaving sol (gmNet S.N S.L S.M C) (fmt "X" n (sfx false)) t = 0 := (hk n hn).2 t
  rw [ep] at kp
  rw [en] at kn
  have hd := hdp.sub hdn
  refine (hd.congr_deriv ?_).congr_of_eventuallyEq (Filter.Eventually.of_forall ?_)
  · apply mul_left_cancel₀ (mul_ne_zero two_ne_zero hC)
    simp only [if_true, if_false, Bool.false_eq_true] at kp kn
    change _ = 2 * C * (_ - leak (absMax S.N S.L S.B) gain *
      (sol.v (fmt "X" n (sfx true)) t - sol.v (fmt "X" n (sfx false)) t))
    linear_combination kp - kn
  · intro y
    simp [diff, sfx]

/-- The matrix of the state equation with every integrator discharging at the rate `r`. -/
def damped (A : ℕ → ℕ → ℝ) (r : ℝ) (n j : ℕ) : ℝ := A n j - if n = j then r else 0

theorem damped_row (S : Analog.Sys ℝ) (G : ℕ → ℕ → ℝ) (r : ℝ) (n : ℕ) (hn : n < S.N)
    (x u s : ℕ → ℝ) :
    ∑ j ∈ Finset.range S.N, damped S.A r n j * x j + ∑ l ∈ Finset.range S.L, S.B n l * u l
      + ∑ m ∈ Finset.range S.M, G n m * s m = rowSum S G n x u s - r * x n := by
  have : ∑ j ∈ Finset.range S.N, damped S.A r n j * x j =
      ∑ j ∈ Finset.range S.N, S.A n j * x j - r * x n := by
    unfold damped
    simp only [sub_mul, Finset.sum_sub_distrib, ite_mul, zero_mul]
    rw [Finset.sum_ite_eq, if_pos (Finset.mem_range.mpr hn)]
  rw [this]
  unfold rowSum
  ring

theorem gmcFrontend_ok (ids : String → ℕ → String) (S : Analog.Sys ℝ) (G : ℕ → ℕ → ℝ)
    (hG : S.Gamma = some G) (C : ℝ) (gain : Option ℝ)
    (hg : gain ≠ none → absMax S.N S.L S.B * C ≠ 0) :
    ∃ s, gmcFrontend ids S C gain = .ok (s, (List.range S.N).map fun n =>
        ⟨multiOtaPins S.N S.L S.M, moNet S G n C gain⟩) ∧
      s.netlist (Obj.name ids) = gmNet S.N S.L S.M C ∧
      ((gmNet S.N S.L S.M C).map Line.inst).Nodup := by
  obtain ⟨s, hs, hnet, hnd⟩ := gmc_netlist ids S.N S.L S.M C
  rw [← netlist_insts (Obj.name ids), hnet] at hnd
  refine ⟨s, ?_, hnet, hnd⟩
  unfold gmcFrontend
  rw [mapM_ok _ _ _ (fun n _ => multiOta_def ids S G hG n C gain hg), hs]

/-- **C53**.  The Gm-C frontend with ideal transconductors: the constructor raises exactly when the
system has states but no control input matrix; otherwise every behaviour of the circuit it describes,
in which the digital control senses the states without loading them, follows the state equation. -/
theorem C53_state_equation (ids : String → ℕ → String) (S : Analog.Sys ℝ) (C : ℝ) (hC : C ≠ 0) :
    (S.Gamma = none → 0 < S.N → gmcFrontend ids S C none = .error .valueError) ∧
    ∀ G, S.Gamma = some G → ∃ s ds, gmcFrontend ids S C none = .ok (s, ds) ∧ ds.length = S.N ∧
      ∀ (law : Law) (sol : Sol),
        (∀ v i, law "digital_control" v i → Senses S.N S.L S.M i) →
        (∀ n (h : n < ds.length), ∀ v i, law (fmt "multi_input_ota_" n "") v i →
          ObeysDef law ds[n] v i) →
        (∀ l ∈ s.netlist (Obj.name ids), Obeys law sol l) →
        (∀ n < S.N, Kirchhoff sol (s.netlist (Obj.name ids)) (fmt "X" n "_P") ∧
          Kirchhoff sol (s.netlist (Obj.name ids)) (fmt "X" n "_N")) →
        StateEquation S.N S.L S.M S.A S.B G
          (fun n => diff sol (fmt "X" n "_P") (fmt "X" n "_N"))
          (fun l => diff sol (fmt "IN" l "_P") (fmt "IN" l "_N"))
          (fun m => diff sol (fmt "OUT" m "_P") (fmt "OUT" m "_N")) := by
  refine ⟨?_, ?_⟩
  · intro hG hN
    unfold gmcFrontend multiOta
    rw [hG]
    obtain ⟨m, hm⟩ : ∃ m, S.N = m + 1 := ⟨S.N - 1, by omega⟩
    rw [hm, List.range_succ_eq_map, List.mapM_cons]
    rfl
  · intro G hG
    obtain ⟨s, hs, hnet, _⟩ := gmcFrontend_ok ids S G hG C none (fun h => absurd rfl h)
    refine ⟨s, _, hs, by simp, ?_⟩
    rw [hnet]
    intro law sol hctl hsub hob hk n hn t
    have h := gmc_behaviour S G C hC none law sol hctl (fun n hn v i hl => by
      have := hsub n (by simpa using hn) v i hl
      simpa using this) hob hk n hn t
    refine h.congr_deriv ?_
    simp [rowSum, leak]

theorem foldl_max (l : List ℝ) : ∀ a : ℝ, a ≤ l.foldl max a ∧ (∀ x ∈ l, x ≤ l.foldl max a) ∧
    (l.foldl max a = a ∨ l.foldl max a ∈ l) := by
  induction l with
  | nil => intro a; simp
  | cons y l ih =>
    intro a
    obtain ⟨h1, h2, h3⟩ := ih (max a y)
    simp only [List.foldl_cons]
    refine ⟨le_trans (le_max_left a y) h1, ?_, ?_⟩
    · intro x hx
      rcases List.mem_cons.mp hx with rfl | hx
      · exact le_trans (le_max_right a x) h1
      · exact h2 x hx
    · rcases h3 with h3 | h3
      · rcases max_choice a y with h | h
        · left; rw [h3, h]
        · right; rw [h3, h]; exact List.mem_cons_self
      · right; exact List.mem_cons_of_mem _ h3

theorem absMax_eq {N L : ℕ} {B : ℕ → ℕ → ℝ} {b : ℝ} (h : LargestEntry N L B b) :
    absMax N L B = b := by
  have hm : ∀ x, x ∈ ((List.range N).flatMap fun n => (List.range L).map fun l => |B n l|) ↔
      ∃ n < N, ∃ l < L, |B n l| = x := by
    intro x
    simp [List.mem_flatMap]
  obtain ⟨⟨n, hn, l, hl, rfl⟩, hb⟩ := h
  obtain ⟨h1, h2, h3⟩ := foldl_max ((List.range N).flatMap fun n =>
    (List.range L).map fun l => |B n l|) 0
  apply le_antisymm
  · rcases h3 with h3 | h3
    · exact le_of_eq_of_le h3 (abs_nonneg _)
    · obtain ⟨n', hn', l', hl', e⟩ := (hm _).mp h3
      exact le_of_eq_of_le e.symm (hb n' hn' l' hl')
  · exact h2 _ ((hm _).mpr ⟨n, hn, l, hl, rfl⟩)

/-- **C90**.  With a finite `DC_gain` every state discharges, at a quarter of the rate that would
give the integrator with the largest input coefficient the requested gain; and the constructor divides
by zero when the input matrix vanishes. -/
theorem C90_finite_gain (ids : String → ℕ → String) (S : Analog.Sys ℝ) (C g : ℝ) (hC : C ≠ 0) :
    ∀ G, S.Gamma = some G → ∀ b, LargestEntry S.N S.L S.B b →
      (b = 0 → gmcFrontend ids S C (some g) = .error .zeroDivision) ∧
      (b ≠ 0 → g ≠ 0 → ∃ s ds, gmcFrontend ids S C (some g) = .ok (s, ds) ∧ ds.length = S.N ∧
      ∀ (law : Law) (sol : Sol),
        (∀ v i, law "digital_control" v i → Senses S.N S.L S.M i) →
        (∀ n (h : n < ds.length), ∀ v i, law (fmt "multi_input_ota_" n "") v i →
          ObeysDef law ds[n] v i) →
        (∀ l ∈ s.netlist (Obj.name ids), Obeys law sol l) →
        (∀ n < S.N, Kirchhoff sol (s.netlist (Obj.name ids)) (fmt "X" n "_P") ∧
          Kirchhoff sol (s.netlist (Obj.name ids)) (fmt "X" n "_N")) →
        StateEquation S.N S.L S.M
          (fun n j => S.A n j - if n = j then b / (4 * g) else 0) S.B G
          (fun n => diff sol (fmt "X" n "_P") (fmt "X" n "_N"))
          (fun l => diff sol (fmt "IN" l "_P") (fmt "IN" l "_N"))
          (fun m => diff sol (fmt "OUT" m "_P") (fmt "OUT" m "_N"))) := by
  intro G hG b hb
  have hN : 0 < S.N := by
    obtain ⟨⟨n, hn, _⟩, _⟩ := hb
    omega
  obtain rfl := absMax_eq hb
  refine ⟨?_, ?_⟩
  · intro h0
    have h1 : ∀ n, multiOta ids S n C (some g) = .error .zeroDivision := by
      intro n
      unfold multiOta
      rw [hG]
      dsimp only
      rw [if_pos ⟨by simp, by rw [h0, zero_mul]⟩]
    unfold gmcFrontend
    simp only [h1]
    obtain ⟨m, hm⟩ : ∃ m, S.N = m + 1 := ⟨S.N - 1, by omega⟩
    rw [hm, List.range_succ_eq_map, List.mapM_cons]
    rfl
  · intro h0 _
    obtain ⟨s, hs, hnet, _⟩ := gmcFrontend_ok ids S G hG C (some g) (fun _ => mul_ne_zero h0 hC)
    refine ⟨s, _, hs, by simp, ?_⟩
    rw [hnet]
    intro law sol hctl hsub hob hk n hn t
    have h := gmc_behaviour S G C hC (some g) law sol hctl (fun n hn v i hl => by
      have := hsub n (by simpa using hn) v i hl
      simpa using this) hob hk n hn t
    refine h.congr_deriv ?_
    exact (damped_row S G _ n hn _ _ _).symm

/-! ### The converse -/

theorem otaNet_insts (k : ℕ) (kd : Kind) (J : ℕ) (F : ℕ → ℝ) (C : ℝ) :
    (otaNet k kd J F C).map Line.inst =
      ((List.range J).flatMap fun j => if F j ≠ 0 then [MoPart.ota kd j] else []).map
        (MoPart.inst k) := by
  unfold otaNet
  rw [List.map_flatMap, List.map_flatMap]
  apply flatMap_congr_range
  intro j _
  by_cases h0 : F j ≠ 0
  · rw [if_pos h0, if_pos h0]
    rfl
  · rw [if_neg h0, if_neg h0]
    rfl

theorem moNet_nodup (S : Analog.Sys ℝ) (G : ℕ → ℕ → ℝ) (k : ℕ) (C : ℝ) (gain : Option ℝ) :
    ((moNet S G k C gain).map Line.inst).Nodup := by
  have e : (moNet S G k C gain).map Line.inst = (moParts S G k gain).map (MoPart.inst k) := by
    unfold moNet moParts
    simp only [List.map_append, otaNet_insts]
    congr 1
    rcases gain with _ | g
    · rfl
    · rfl
  rw [e]
  exact (moParts_nodup S G k gain).map (MoPart.inst_inj k)

/-- The devices of a transconductor obey their laws with the currents that follow from the
potentials. -/
theorem moNet_obeys (law : Law) (S : Analog.Sys ℝ) (G : ℕ → ℕ → ℝ) (k : ℕ) (C : ℝ)
    (gain : Option ℝ) (v : String → ℝ → ℝ) :
    ∀ l ∈ moNet S G k C gain, Obeys law ⟨v, currents (moNet S G k C gain) v⟩ l := by
  intro l hl
  have hcur : currents (moNet S G k C gain) v l.inst = current v l :=
    currents_eq (moNet_nodup S G k C gain) v hl
  have hota : ∀ (kd : Kind) (J : ℕ) (F : ℕ → ℝ), l ∈ otaNet k kd J F C →
      Obeys law ⟨v, currents (moNet S G k C gain) v⟩ l := by
    intro kd J F h
    unfold otaNet at h
    obtain ⟨j, _, h⟩ := List.mem_flatMap.mp h
    by_cases h0 : F j ≠ 0
    · rw [if_pos h0, List.mem_singleton] at h
      subst h
      intro t
      dsimp only at hcur ⊢
      rw [hcur]
      exact ⟨rfl, rfl, rfl, rfl⟩
    · rw [if_neg h0] at h
      cases h
  have hl' := hl
  unfold moNet at hl'
  simp only [List.mem_append] at hl'
  rcases hl' with ((h | h) | h) | h
  · exact hota _ _ _ h
  · exact hota _ _ _ h
  · exact hota _ _ _ h
  · rcases gain with _ | g
    · cases h
    · simp only [gainNet, List.mem_cons, List.not_mem_nil, or_false] at h
      rcases h with rfl | rfl <;>
      · intro t
        dsimp only at hcur ⊢
        rw [hcur]
        exact ⟨rfl, rfl⟩

/-- All nodes of a transconductor are terminals of it. -/
theorem moNet_nodes (S : Analog.Sys ℝ) (G : ℕ → ℕ → ℝ) (k : ℕ) (hk : k < S.N) (C : ℝ)
    (gain : Option ℝ) : ∀ l ∈ moNet S G k C gain, ∀ a ∈ l.nodes, a ∈ multiOtaPins S.N S.L S.M := by
  have mx : ∀ j < S.N, ∀ q, fmt "X" j (sfx q) ∈ multiOtaPins S.N S.L S.M := fun j hj q =>
    (pins_mem _ _ _ _).mpr (Or.inr (Or.inr (Or.inr (Or.inl ⟨j, hj, q, rfl⟩))))
  have mi : ∀ j < S.L, ∀ q, fmt "IN" j (sfx q) ∈ multiOtaPins S.N S.L S.M := fun j hj q =>
    (pins_mem _ _ _ _).mpr (Or.inr (Or.inr (Or.inr (Or.inr (Or.inl ⟨j, hj, q, rfl⟩)))))
  have ms : ∀ j < S.M, ∀ q, fmt "S" j (sfx q) ∈ multiOtaPins S.N S.L S.M := fun j hj q =>
    (pins_mem _ _ _ _).mpr (Or.inr (Or.inr (Or.inr (Or.inr (Or.inr ⟨j, hj, q, rfl⟩)))))
  have mv : "VCM" ∈ multiOtaPins S.N S.L S.M := (pins_mem _ _ _ _).mpr (Or.inr (Or.inr (Or.inl rfl)))
  have hota : ∀ (kd : Kind) (J : ℕ) (F : ℕ → ℝ),
      (∀ j < J, ∀ q, fmt kd.pin j (sfx q) ∈ multiOtaPins S.N S.L S.M) →
      ∀ l ∈ otaNet k kd J F C, ∀ a ∈ l.nodes, a ∈ multiOtaPins S.N S.L S.M := by
    intro kd J F hJ l h a ha
    unfold otaNet at h
    obtain ⟨j, hj, h⟩ := List.mem_flatMap.mp h
    have hj := List.mem_range.mp hj
    by_cases h0 : F j ≠ 0
    · rw [if_pos h0, List.mem_singleton] at h
      subst h
      simp only [List.mem_cons, List.not_mem_nil, or_false] at ha
      rcases ha with rfl | rfl | rfl | rfl
      · exact mx k hk true
      · exact mx k hk false
      · by_cases hn : F j * C < 0
        · rw [if_pos hn]; exact hJ j hj true
        · rw [if_neg hn]; exact hJ j hj false
      · by_cases hn : F j * C < 0
        · rw [if_pos hn]; exact hJ j hj false
        · rw [if_neg hn]; exact hJ j hj true
    · rw [if_neg h0] at h
      cases h
  intro l hl a ha
  unfold moNet at hl
  simp only [List.mem_append] at hl
  rcases hl with ((h | h) | h) | h
  · exact hota .a _ _ mx l h a ha
  · exact hota .b _ _ mi l h a ha
  · exact hota .g _ _ ms l h a ha
  · rcases gain with _ | g
    · cases h
    · simp only [gainNet, List.mem_cons, List.not_mem_nil, or_false] at h
      rcases h with rfl | rfl <;> simp only [List.mem_cons, List.not_mem_nil, or_false] at ha <;>
        rcases ha with rfl | rfl
      · exact mx k hk true
      · exact mv
      · exact mv
      · exact mx k hk false

theorem potential_vcm (x u s : ℕ → ℝ → ℝ) : potential x u s "VCM" = 0 := by
  unfold potential
  rw [dif_neg]
  rintro ⟨q, hq⟩
  rcases q with ⟨q, m⟩ | ⟨q, m⟩ | ⟨q, m⟩ <;> cases q <;>
    simp only [Signal.name, sfx] at hq <;> names at hq

/-- The digital control is the only part of the Gm-C frontend of its name. -/
theorem gmNet_control (N L M : ℕ) (C : ℝ) (l : Line ℝ) (hl : l ∈ gmNet N L M C) (h : l.inst = "Xdc") :
    l = ⟨"Xdc", .sub "digital_control", (controlPins N L M).map OaPart.ctl.hubPin⟩ := by
  unfold gmNet at hl
  rcases List.mem_cons.mp hl with rfl | hl
  · rfl
  · obtain ⟨n, _, hl⟩ := List.mem_flatMap.mp hl
    simp only [List.mem_cons, List.not_mem_nil, or_false] at hl
    rcases hl with rfl | rfl | rfl <;> dsimp only at h <;> names at h

/-- Every solution of the (damped) state equation is a behaviour of the circuit, whatever law the control has that
allows these potentials without a current. -/
theorem gmc_realise (S : Analog.Sys ℝ) (G : ℕ → ℕ → ℝ) (C : ℝ) (gain : Option ℝ)
    (hnd : ((gmNet S.N S.L S.M C).map Line.inst).Nodup) (x u s : ℕ → ℝ → ℝ)
    (hx : StateEquation S.N S.L S.M (damped S.A (leak (absMax S.N S.L S.B) gain)) S.B G x u s) :
    ∃ (ota : ℕ → (ℕ → ℝ → ℝ) → (ℕ → ℝ → ℝ) → Prop) (sol : Sol), sol.v = potential x u s ∧
      sol.i "Xdc" = (fun _ _ => 0) ∧
      (∀ (law : Law), ∀ n < S.N, ∀ v i, ota n v i → ObeysDef law ⟨multiOtaPins S.N S.L S.M, moNet S G n C gain⟩ v i) ∧
      (∀ (law : Law), (∀ n < S.N, ∀ v i, ota n v i → law (fmt "multi_input_ota_" n "") v i) →
        ∀ l ∈ gmNet S.N S.L S.M C, l.inst ≠ "Xdc" → Obeys law sol l) ∧
      ∀ n < S.N, Kirchhoff sol (gmNet S.N S.L S.M C) (fmt "X" n "_P") ∧
        Kirchhoff sol (gmNet S.N S.L S.M C) (fmt "X" n "_N") := by
  let P := potential x u s
  -- potentials and currents inside a transconductor
  let vin : String → ℝ → ℝ := fun a => P (OaPart.ctl.hubPin a)
  let inner : ℕ → Sol := fun n => ⟨vin, currents (moNet S G n C gain) vin⟩
  let ota : ℕ → (ℕ → ℝ → ℝ) → (ℕ → ℝ → ℝ) → Prop := fun n v i =>
    ∀ k (h : k < (multiOtaPins S.N S.L S.M).length), v k = vin (multiOtaPins S.N S.L S.M)[k] ∧
      i k = leaving (inner n) (moNet S G n C gain) (multiOtaPins S.N S.L S.M)[k]
  -- currents outside
  let iout : String → ℕ → ℝ → ℝ := fun e k t =>
    if ∃ n < S.N, e = fmt "Xgm" n "" then
      ∑ n ∈ Finset.range S.N, if e = fmt "Xgm" n "" then
        leaving (inner n) (moNet S G n C gain) ((multiOtaPins S.N S.L S.M).getD k "") t else 0
    else currents (gmNet S.N S.L S.M C) P e k t
  let sol : Sol := ⟨P, iout⟩
  have hX : ∀ n p, P (fmt "X" n (sfx p)) = (Signal.x p n).half x u s :=
    fun n p => potential_signal x u s (.x p n)
  have hU : ∀ n p, P (fmt "IN" n (sfx p)) = (Signal.u p n).half x u s :=
    fun n p => potential_signal x u s (.u p n)
  have hS : ∀ n p, P (fmt "OUT" n (sfx p)) = (Signal.s p n).half x u s :=
    fun n p => potential_signal x u s (.s p n)
  have hV : P "VCM" = 0 := potential_vcm x u s
  have gm_inj : ∀ {n m : ℕ}, fmt "Xgm" n "" = fmt "Xgm" m "" → n = m := by
    intro n m e; names at e; exact e
  have igm : ∀ n < S.N, ∀ k (h : k < (multiOtaPins S.N S.L S.M).length), iout (fmt "Xgm" n "") k =
      leaving (inner n) (moNet S G n C gain) (multiOtaPins S.N S.L S.M)[k] := by
    intro n hn k h
    funext t
    change (if _ then _ else _) = _
    rw [if_pos ⟨n, hn, rfl⟩, Finset.sum_eq_single n]
    · rw [if_pos rfl, List.getD_eq_getElem?_getD, List.getElem?_eq_getElem h]
      rfl
    · intro m _ hm
      rw [if_neg (fun e => hm (gm_inj e).symm)]
    · intro h'
      exact absurd (Finset.mem_range.mpr hn) h'
  have iother : ∀ l ∈ gmNet S.N S.L S.M C, (¬ ∃ n < S.N, l.inst = fmt "Xgm" n "") →
      iout l.inst = current P l := by
    intro l hl h
    funext k t
    change (if _ then _ else _) = _
    rw [if_neg h, currents_eq hnd P hl]
  have hsub : ∀ (law : Law), ∀ n < S.N, ∀ v i, ota n v i →
        ObeysDef law ⟨multiOtaPins S.N S.L S.M, moNet S G n C gain⟩ v i := by
    intro law n hn v i h
    refine ⟨inner n, moNet_obeys law S G n C gain vin, ?_, ?_⟩
    · intro k hk
      obtain ⟨h1, h2⟩ := h k hk
      exact ⟨h1.symm, h2⟩
    · intro a ha t
      unfold leaving
      apply List.sum_eq_zero
      intro y hy
      obtain ⟨l, hl, rfl⟩ := List.mem_map.mp hy
      exact inflow_notMem _ _ _ _ (fun h' => ha (moNet_nodes S G n hn C gain l hl a h'))
  have hxh : ∀ n < S.N, ∀ (p : Bool) t, HasDerivAt (fun z => P (fmt "X" n (sfx p)) z - P "VCM" z)
      ((if p then 1 else -1) * ((rowSum S G n (x · t) (u · t) (s · t)
        - leak (absMax S.N S.L S.B) gain * x n t) / 2)) t := by
    intro n hn p t
    have h := hx n hn t
    rw [damped_row S G _ n hn (x · t) (u · t) (s · t)] at h
    have h := h.div_const 2
    rw [hV, hX]
    cases p
    · refine (h.neg.congr_deriv (by simp)).congr_of_eventuallyEq (Filter.Eventually.of_forall ?_)
      intro z
      simp [Signal.half]
    · refine (h.congr_deriv (by simp)).congr_of_eventuallyEq (Filter.Eventually.of_forall ?_)
      intro z
      simp [Signal.half]
  have hdc : iout "Xdc" = fun _ _ => 0 := by
    have hi := iother ⟨"Xdc", .sub "digital_control", (controlPins S.N S.L S.M).map OaPart.ctl.hubPin⟩
      List.mem_cons_self (by
        rintro ⟨n, _, e⟩
        dsimp only at e
        names at e)
    dsimp only at hi
    rw [hi]
    rfl
  have hob : ∀ (law : Law), (∀ n < S.N, ∀ v i, ota n v i → law (fmt "multi_input_ota_" n "") v i) →
      ∀ l ∈ gmNet S.N S.L S.M C, l.inst ≠ "Xdc" → Obeys law sol l := by
    intro law hlaw l hl hne
    have hl' := hl
    unfold gmNet at hl'
    rcases List.mem_cons.mp hl' with rfl | hl'
    · exact absurd rfl hne
    · obtain ⟨n, hn, hl'⟩ := List.mem_flatMap.mp hl'
      have hn := List.mem_range.mp hn
      simp only [List.mem_cons, List.not_mem_nil, or_false] at hl'
      rcases hl' with rfl | rfl | rfl
      · refine hlaw n hn _ _ fun k hk => ?_
        refine ⟨?_, igm n hn k hk⟩
        change P (((multiOtaPins S.N S.L S.M).map OaPart.ctl.hubPin).getD k "") = P _
        rw [List.getD_eq_getElem?_getD, List.getElem?_map, List.getElem?_eq_getElem hk]
        rfl
      · have hi := iother _ hl (by
          rintro ⟨m, _, e⟩
          dsimp only at e
          names at e)
        intro t
        have h := hxh n hn true t
        refine ⟨_, h, ?_, ?_⟩
        · change iout _ 0 t = _
          rw [hi, ← h.deriv]; rfl
        · change iout _ 1 t = - iout _ 0 t
          rw [hi]; rfl
      · have hi := iother _ hl (by
          rintro ⟨m, _, e⟩
          dsimp only at e
          names at e)
        intro t
        have h := (hxh n hn false t).neg
        have h' : HasDerivAt (fun z => P "VCM" z - P (fmt "X" n "_N") z) _ t :=
          h.congr_of_eventuallyEq (Filter.Eventually.of_forall (fun z => by simp [sfx]))
        refine ⟨_, h', ?_, ?_⟩
        · change iout _ 0 t = _
          rw [hi, ← h'.deriv]; rfl
        · change iout _ 1 t = - iout _ 0 t
          rw [hi]; rfl
  have dX : ∀ n, diff sol (fmt "X" n "_P") (fmt "X" n "_N") = x n := by
    intro n
    funext t
    change P (fmt "X" n (sfx true)) t - P (fmt "X" n (sfx false)) t = _
    rw [hX, hX]
    simp [Signal.half]
  have dU : ∀ n, diff sol (fmt "IN" n "_P") (fmt "IN" n "_N") = u n := by
    intro n
    funext t
    change P (fmt "IN" n (sfx true)) t - P (fmt "IN" n (sfx false)) t = _
    rw [hU, hU]
    simp [Signal.half]
  have dS : ∀ n, diff sol (fmt "OUT" n "_P") (fmt "OUT" n "_N") = s n := by
    intro n
    funext t
    change P (fmt "OUT" n (sfx true)) t - P (fmt "OUT" n (sfx false)) t = _
    rw [hS, hS]
    simp [Signal.half]
  have hk : ∀ n < S.N, ∀ p, Kirchhoff sol (gmNet S.N S.L S.M C) (fmt "X" n (sfx p)) := by
    intro n hn p t
    let law : Law := fun name v i => (name = "digital_control" → Senses S.N S.L S.M i) ∧
      ∀ n < S.N, name = fmt "multi_input_ota_" n "" → ota n v i
    obtain ⟨d, hd, e⟩ := gmNet_leaving S G C gain law sol (fun v i h => h.1 rfl)
      (fun n hn v i h => hsub law n hn v i (h.2 n hn rfl)) (by
        intro l hl
        by_cases hne : l.inst = "Xdc"
        · rw [gmNet_control S.N S.L S.M C l hl hne]
          refine ⟨fun _ k n p _ => ?_, fun n _ e => by names at e⟩
          change iout "Xdc" k = 0
          rw [hdc]
          rfl
        · refine hob law (fun n hn v i h => ⟨fun e => by names at e, fun m _ e => ?_⟩) l hl hne
          names at e
          subst e
          exact h) n hn p t
    have hd' := hd.unique (hxh n hn p t)
    rw [e, hd']
    simp only [dX, dU, dS]
    change _ + 2 * C * leak (absMax S.N S.L S.B) gain * (P (fmt "X" n (sfx p)) t - P "VCM" t) + _ = 0
    rw [hX, hV]
    cases p <;> simp [Signal.half] <;> ring
  exact ⟨ota, sol, rfl, hdc, hsub, hob, fun n hn => ⟨hk n hn true, hk n hn false⟩⟩

/-- Every solution of the (damped) state equation is a behaviour of the circuit. -/
theorem gmc_realisable (S : Analog.Sys ℝ) (G : ℕ → ℕ → ℝ) (C : ℝ) (gain : Option ℝ)
    (hnd : ((gmNet S.N S.L S.M C).map Line.inst).Nodup) (x u s : ℕ → ℝ → ℝ)
    (hx : StateEquation S.N S.L S.M (damped S.A (leak (absMax S.N S.L S.B) gain)) S.B G x u s) :
    ∃ (law : Law) (sol : Sol),
      (∀ v i, law "digital_control" v i → Senses S.N S.L S.M i) ∧
      (∀ n < S.N, ∀ v i, law (fmt "multi_input_ota_" n "") v i →
        ObeysDef law ⟨multiOtaPins S.N S.L S.M, moNet S G n C gain⟩ v i) ∧
      (∀ l ∈ gmNet S.N S.L S.M C, Obeys law sol l) ∧
      (∀ n < S.N, Kirchhoff sol (gmNet S.N S.L S.M C) (fmt "X" n "_P") ∧
        Kirchhoff sol (gmNet S.N S.L S.M C) (fmt "X" n "_N")) ∧
      (∀ n, diff sol (fmt "X" n "_P") (fmt "X" n "_N") = x n) ∧
      (∀ l, diff sol (fmt "IN" l "_P") (fmt "IN" l "_N") = u l) ∧
      ∀ m, diff sol (fmt "OUT" m "_P") (fmt "OUT" m "_N") = s m := by
  obtain ⟨ota, sol, hv, hdc, hsub, hob, hk⟩ := gmc_realise S G C gain hnd x u s hx
  refine ⟨fun name v i => (name = "digital_control" → Senses S.N S.L S.M i) ∧
    ∀ n < S.N, name = fmt "multi_input_ota_" n "" → ota n v i, sol, fun v i h => h.1 rfl,
    fun n hn v i h => hsub _ n hn v i (h.2 n hn rfl), ?_, hk, ?_, ?_, ?_⟩
  · intro l hl
    by_cases hne : l.inst = "Xdc"
    · rw [gmNet_control S.N S.L S.M C l hl hne]
      refine ⟨fun _ k n p _ => ?_, fun n _ e => by names at e⟩
      rw [hdc]
      rfl
    · refine hob _ (fun n hn v i h => ⟨fun e => by names at e, fun m _ e => ?_⟩) l hl hne
      names at e
      subst e
      exact h
  · intro n
    funext t
    change sol.v (fmt "X" n (sfx true)) t - sol.v (fmt "X" n (sfx false)) t = _
    rw [hv, show potential x u s (fmt "X" n (sfx true)) = _ from potential_signal x u s (.x true n),
      show potential x u s (fmt "X" n (sfx false)) = _ from potential_signal x u s (.x false n)]
    simp [Signal.half]
  · intro n
    funext t
    change sol.v (fmt "IN" n (sfx true)) t - sol.v (fmt "IN" n (sfx false)) t = _
    rw [hv, show potential x u s (fmt "IN" n (sfx true)) = _ from potential_signal x u s (.u true n),
      show potential x u s (fmt "IN" n (sfx false)) = _ from potential_signal x u s (.u false n)]
    simp [Signal.half]
  · intro n
    funext t
    change sol.v (fmt "OUT" n (sfx true)) t - sol.v (fmt "OUT" n (sfx false)) t = _
    rw [hv, show potential x u s (fmt "OUT" n (sfx true)) = _ from potential_signal x u s (.s true n),
      show potential x u s (fmt "OUT" n (sfx false)) = _ from potential_signal x u s (.s false n)]
    simp [Signal.half]

/-- **C53**, converse: every solution of the state equation is a behaviour of the Gm-C frontend, and
with a finite gain every solution of the damped one. -/
theorem C53_realisable (ids : String → ℕ → String) (S : Analog.Sys ℝ) (C : ℝ)
    (G : ℕ → ℕ → ℝ) (hG : S.Gamma = some G) (gain : Option ℝ)
    (b : ℝ)
    (hg : gain ≠ none → LargestEntry S.N S.L S.B b ∧ b * C ≠ 0) (x u s : ℕ → ℝ → ℝ)
    (hx : StateEquation S.N S.L S.M (fun n j => S.A n j - if n = j then
      (match gain with | none => 0 | some g => b / (4 * g)) else 0) S.B G x u s) :
    ∃ c ds, gmcFrontend ids S C gain = .ok (c, ds) ∧ ds.length = S.N ∧ ∃ (law : Law) (sol : Sol),
      (∀ v i, law "digital_control" v i → Senses S.N S.L S.M i) ∧
      (∀ n (h : n < ds.length), ∀ v i, law (fmt "multi_input_ota_" n "") v i →
        ObeysDef law ds[n] v i) ∧
      (∀ l ∈ c.netlist (Obj.name ids), Obeys law sol l) ∧
      (∀ n < S.N, Kirchhoff sol (c.netlist (Obj.name ids)) (fmt "X" n "_P") ∧
        Kirchhoff sol (c.netlist (Obj.name ids)) (fmt "X" n "_N")) ∧
      (∀ n, diff sol (fmt "X" n "_P") (fmt "X" n "_N") = x n) ∧
      (∀ l, diff sol (fmt "IN" l "_P") (fmt "IN" l "_N") = u l) ∧
      ∀ m, diff sol (fmt "OUT" m "_P") (fmt "OUT" m "_N") = s m := by
  obtain ⟨c, hc, hnet, hnd⟩ := gmcFrontend_ok ids S G hG C gain
    (fun h => by rw [absMax_eq (hg h).1]; exact (hg h).2)
  refine ⟨c, _, hc, by simp, ?_⟩
  rw [hnet]
  have hx' : StateEquation S.N S.L S.M (damped S.A (leak (absMax S.N S.L S.B) gain)) S.B G x u s := by
    rcases gain with _ | g
    · exact hx
    · rw [absMax_eq (hg (by simp)).1]
      exact hx
  obtain ⟨law, sol, h1, h2, h3⟩ := gmc_realisable S G C gain hnd x u s hx'
  refine ⟨law, sol, h1, ?_, h3⟩
  intro n h v i hl
  have := h2 n (by simpa using h) v i hl
  simpa using this

/-- The hypotheses of `C53_state_equation` are met by the circuit of an integrator whose state rises
with slope one half (input one, control three quarters). -/
example : ∃ c ds, gmcFrontend (fun e k => fmt e k "") oneIntegrator 1 none = .ok (c, ds) ∧
    ds.length = 1 ∧ ∃ (law : Law) (sol : Sol),
      (∀ v i, law "digital_control" v i → Senses 1 1 1 i) ∧
      (∀ n (h : n < ds.length), ∀ v i, law (fmt "multi_input_ota_" n "") v i →
        ObeysDef law ds[n] v i) ∧
      (∀ l ∈ c.netlist (Obj.name fun e k => fmt e k ""), Obeys law sol l) ∧
      (∀ n < 1, Kirchhoff sol (c.netlist (Obj.name fun e k => fmt e k "")) (fmt "X" n "_P") ∧
        Kirchhoff sol (c.netlist (Obj.name fun e k => fmt e k "")) (fmt "X" n "_N")) ∧
      diff sol (fmt "X" 0 "_P") (fmt "X" 0 "_N") = fun t => t / 2 := by
  obtain ⟨c, ds, hc, hl, law, sol, h1, h2, h3, h4, h5, _⟩ := C53_realisable (fun e k => fmt e k "")
    oneIntegrator 1 (fun _ _ => -2) rfl none 0 (fun h => absurd rfl h) (fun _ t => t / 2)
    (fun _ _ => 1) (fun _ _ => 3 / 4) (by
      intro n _ t
      refine ((hasDerivAt_id t).div_const 2).congr_deriv ?_
      simp [oneIntegrator]
      norm_num)
  exact ⟨c, ds, hc, hl, law, sol, h1, h2, h3, h4, h5 0⟩

theorem oneIntegrator_largest : LargestEntry 1 1 oneIntegrator.B 2 := by
  refine ⟨⟨0, by omega, 0, by omega, ?_⟩, ?_⟩
  · simp [oneIntegrator]
  · intro n _ l _
    simp [oneIntegrator]

/-- **C90**, refutation of the documented meaning: an integrator with input coefficient two, asked for
a gain of ten, rests at forty times its input. -/
theorem C90_gain_false : ∃ c ds,
    gmcFrontend (fun e k => fmt e k "") oneIntegrator 1 (some 10) = .ok (c, ds) ∧
    ds.length = 1 ∧ ∃ (law : Law) (sol : Sol),
      (∀ v i, law "digital_control" v i → Senses 1 1 1 i) ∧
      (∀ n (h : n < ds.length), ∀ v i, law (fmt "multi_input_ota_" n "") v i →
        ObeysDef law ds[n] v i) ∧
      (∀ l ∈ c.netlist (Obj.name fun e k => fmt e k ""), Obeys law sol l) ∧
      (∀ n < 1, Kirchhoff sol (c.netlist (Obj.name fun e k => fmt e k "")) (fmt "X" n "_P") ∧
        Kirchhoff sol (c.netlist (Obj.name fun e k => fmt e k "")) (fmt "X" n "_N")) ∧
      diff sol (fmt "IN" 0 "_P") (fmt "IN" 0 "_N") = (fun _ => 1) ∧
      diff sol (fmt "OUT" 0 "_P") (fmt "OUT" 0 "_N") = (fun _ => 0) ∧
      diff sol (fmt "X" 0 "_P") (fmt "X" 0 "_N") = fun _ => 40 := by
  obtain ⟨c, ds, hc, hl, law, sol, h1, h2, h3, h4, h5, h6, h7⟩ :=
    C53_realisable (fun e k => fmt e k "")
    oneIntegrator 1 (fun _ _ => -2) rfl (some 10) 2
    (fun _ => ⟨oneIntegrator_largest, by norm_num⟩) (fun _ _ => 40)
    (fun _ _ => 1) (fun _ _ => 0) (by
      intro n hn t
      have hn : n = 0 := by
        change n < 1 at hn
        omega
      subst hn
      refine (hasDerivAt_const t (40 : ℝ)).congr_deriv ?_
      change (0 : ℝ) = ∑ j ∈ Finset.range 1, (0 - if 0 = j then
        2 / (4 * 10) else 0) * 40 + ∑ l ∈ Finset.range 1, 2 * 1
        + ∑ m ∈ Finset.range 1, -2 * 0
      simp
      norm_num)
  exact ⟨c, ds, hc, hl, law, sol, h1, h2, h3, h4, h6 0, h7 0, h5 0⟩

/-- `C90_finite_gain` for the integrator with amplifiers of gain 100. -/
example : ∃ s ds, gmcFrontend (fun e k => fmt e k "") oneIntegrator 1 (some 100) = .ok (s, ds) ∧ ds.length = 1 := by
  obtain ⟨s, ds, h, h1, -⟩ := (C90_finite_gain (fun e k => fmt e k "") oneIntegrator 1 100 one_ne_zero _ rfl 2
    ⟨⟨0, Nat.one_pos, 0, Nat.one_pos, by simp [oneIntegrator]⟩, fun _ _ _ _ => by simp [oneIntegrator]⟩).2 two_ne_zero
    (by norm_num)
  exact ⟨s, ds, h, h1⟩


end Cbadc.Circuit
