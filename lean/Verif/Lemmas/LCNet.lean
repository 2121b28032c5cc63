import Verif.Lemmas.LC
import Verif.Spec.LC
import Verif.Props.GmC

/-! # The behaviour of the LC frontend's netlist -/

namespace Cbadc.Circuit

open Spec

/-- The name of an inductor. -/
def lcInd (p : Bool) (k : ℕ) : String := fmt (if p then "Lp_" else "Ln_") k ""

/-- The current through an inductor, zero beyond the last one. -/
noncomputable def lcCur (sol : Sol) (M : ℕ) (p : Bool) (k : ℕ) (t : ℝ) : ℝ :=
  if k + 1 < M then sol.i (lcInd p k) 0 t else 0

/-- The current drawn from a capacitor node of the LC frontend. -/
theorem lcNet_leaving (M : ℕ) (L C Rin : ℝ) (gain : ℕ → ℝ) (law : Law) (sol : Sol)
    (hctl : ∀ v i, law "digital_control" v i → Senses M 1 M i)
    (hob : ∀ l ∈ lcNet M L C Rin gain, Obeys law sol l) (m : ℕ) (hm : m < M) (p : Bool) (t : ℝ) :
    ∃ d, HasDerivAt (diff sol (fmt "X" m "_P") (fmt "X" m "_N")) d t ∧
      leaving sol (lcNet M L C Rin gain) (fmt "X" m (sfx p)) t =
        lcCur sol M p m t - (if m = 0 then 0 else lcCur sol M p (m - 1) t)
        + (if p then 1 else -1) * (C * d)
        - (if m = 0 then (sol.v (fmt "IN" 0 (sfx p)) t - sol.v (fmt "X" 0 (sfx p)) t) / Rin else 0)
        - (if p then 1 else -1) * (|gain m * C / 2| * diff sol (fmt "OUT" m "_P") (fmt "OUT" m "_N") t) := by
  have hob' := hob
  unfold lcNet at hob'
  simp only [List.mem_append, or_imp, forall_and] at hob'
  obtain ⟨⟨⟨⟨⟨⟨h1, h2⟩, h3⟩, h4⟩, h5⟩, h6⟩, h7⟩ := hob'
  have eP : ∀ j, fmt "X" j "_P" = fmt "X" m (sfx p) ↔ j = m ∧ true = p := fun j => state_name_inj (p := true)
  have eN : ∀ j, fmt "X" j "_N" = fmt "X" m (sfx p) ↔ j = m ∧ false = p := fun j => state_name_inj (p := false)
  have eI : ∀ q, fmt "IN" 0 (sfx q) ≠ fmt "X" m (sfx p) := by
    intro q e; cases q <;> cases p <;> simp only [sfx] at e <;> names at e
  have eO : ∀ j q, fmt "OUT" j (sfx q) ≠ fmt "X" m (sfx p) := by
    intro j q e; cases q <;> cases p <;> simp only [sfx] at e <;> names at e
  have eD : "VDD" ≠ fmt "X" m (sfx p) := by intro e; names at e
  have eS : "VSS" ≠ fmt "X" m (sfx p) := by intro e; names at e
  -- the control
  have z1 : inflow sol (fmt "X" m (sfx p)) t ⟨"Xdc", .sub "digital_control",
      (controlPins M 1 M).map OaPart.ctl.hubPin⟩ = 0 := by
    have hs := hctl _ _ (h1 _ (List.mem_singleton_self _))
    apply inflow_zero
    intro k b hb e
    dsimp only at hb
    rw [List.getElem?_map, Option.map_eq_some_iff] at hb
    obtain ⟨s, g1, g2⟩ := hb
    rw [e] at g2
    have := ctlPin_state (List.mem_of_getElem? g1) g2
    rw [this] at g1
    exact congrFun (hs k m p g1) t
  -- the capacitors
  obtain ⟨d, hd, c0, c1⟩ := h4 _ (List.mem_map_of_mem (List.mem_range.mpr hm)) t
  simp only at c0 c1
  refine ⟨d, hd, ?_⟩
  have z4 : leaving sol ((List.range M).map fun i =>
      (⟨fmt "C_" i "", .cap C, [fmt "X" i "_P", fmt "X" i "_N"]⟩ : Line ℝ)) (fmt "X" m (sfx p)) t =
      (if p then 1 else -1) * (C * d) := by
    rw [leaving_map, Finset.sum_eq_single m]
    · rw [inflow_two, c1, c0]
      simp only [eP, eN]
      cases p <;> simp
    · intro j _ hj
      rw [inflow_two]
      simp [eP, eN, hj]
    · intro h'
      exact absurd (Finset.mem_range.mpr hm) h'
  -- the inductors
  have ind : ∀ (q : Bool), (∀ l ∈ (List.range (M - 1)).map fun i => (⟨lcInd q i, .ind L,
      [fmt "X" i (sfx q), fmt "X" (i + 1) (sfx q)]⟩ : Line ℝ), Obeys law sol l) →
      leaving sol ((List.range (M - 1)).map fun i => (⟨lcInd q i, .ind L,
        [fmt "X" i (sfx q), fmt "X" (i + 1) (sfx q)]⟩ : Line ℝ)) (fmt "X" m (sfx p)) t =
      if q = p then lcCur sol M p m t - (if m = 0 then 0 else lcCur sol M p (m - 1) t) else 0 := by
    intro q h
    rw [leaving_map]
    have key : ∀ k ∈ Finset.range (M - 1), inflow sol (fmt "X" m (sfx p)) t
        ⟨lcInd q k, .ind L, [fmt "X" k (sfx q), fmt "X" (k + 1) (sfx q)]⟩ =
        (if q = p then (if k = m then lcCur sol M p m t else 0) else 0) -
        (if q = p then (if k = m - 1 then (if m = 0 then 0 else lcCur sol M p (m - 1) t) else 0) else 0) := by
      intro k hk
      rw [Finset.mem_range] at hk
      obtain ⟨_, _, _, i1⟩ := h _ (List.mem_map_of_mem (List.mem_range.mpr hk)) t
      simp only at i1
      rw [inflow_two, i1]
      simp only [state_name_inj]
      by_cases hq : q = p
      · subst hq
        simp only [and_true, if_true]
        by_cases ha : k = m
        · subst ha
          have e1 : ¬ (k + 1 = k) := by omega
          by_cases h0 : k = 0
          · subst h0
            simp [lcCur, show 0 + 1 < M by omega]
          · have e2 : ¬ (k = k - 1) := by omega
            simp [lcCur, show k + 1 < M by omega, e2]
        · by_cases hb : k + 1 = m
          · have e1 : k = m - 1 := by omega
            have e2 : m ≠ 0 := by omega
            have e3 : m - 1 + 1 = m := by omega
            simp [ha, hb, ← e1, e2, lcCur, hm]
          · by_cases h0 : m = 0
            · subst h0
              simp [ha]
            · have e1 : ¬ (k = m - 1) := by omega
              simp [ha, hb, e1]
      · simp [hq]
    rw [Finset.sum_congr rfl key, Finset.sum_sub_distrib]
    by_cases hq : q = p
    · simp only [if_pos hq, Finset.sum_ite_eq', Finset.mem_range]
      congr 1
      · by_cases h' : m < M - 1
        · rw [if_pos h']
        · rw [if_neg h', lcCur, if_neg (by omega)]
      · by_cases h' : m - 1 < M - 1
        · rw [if_pos h']
        · rw [if_neg h', if_pos (by omega)]
    · simp [hq]
  have z2 := ind true (by simpa [lcInd, sfx] using h2)
  have z3 := ind false (by simpa [lcInd, sfx] using h3)
  change leaving sol ((List.range (M - 1)).map fun i =>
    (⟨fmt "Lp_" i "", .ind L, [fmt "X" i "_P", fmt "X" (i + 1) "_P"]⟩ : Line ℝ)) _ t = _ at z2
  change leaving sol ((List.range (M - 1)).map fun i =>
    (⟨fmt "Ln_" i "", .ind L, [fmt "X" i "_N", fmt "X" (i + 1) "_N"]⟩ : Line ℝ)) _ t = _ at z3
  -- the resistors
  have o1 := h5 _ List.mem_cons_self t
  have o2 := h5 _ (List.mem_cons_of_mem _ (List.mem_singleton_self _)) t
  obtain ⟨a0, a1⟩ := o1
  obtain ⟨b0, b1⟩ := o2
  simp only at a0 a1 b0 b1
  have z5 : leaving sol [⟨"Rin_p", .res Rin, [fmt "IN" 0 "_P", fmt "X" 0 "_P"]⟩,
      ⟨"Rin_n", .res Rin, [fmt "IN" 0 "_N", fmt "X" 0 "_N"]⟩] (fmt "X" m (sfx p)) t =
      - (if m = 0 then (sol.v (fmt "IN" 0 (sfx p)) t - sol.v (fmt "X" 0 (sfx p)) t) / Rin else 0) := by
    have eIP : fmt "IN" 0 "_P" ≠ fmt "X" m (sfx p) := eI true
    have eIN : fmt "IN" 0 "_N" ≠ fmt "X" m (sfx p) := eI false
    rw [leaving_cons, leaving_cons, leaving_nil, inflow_two, inflow_two, if_neg eIP, if_neg eIN, a1, b1, a0, b0]
    simp only [eP, eN]
    by_cases h0 : m = 0
    · subst h0
      cases p <;> simp [sfx]
    · have : ¬ (0 = m) := fun e => h0 e.symm
      simp [h0, this]
  -- the transconductors
  have z6 : leaving sol ((List.range M).map fun m => (⟨fmt "Ggm" m "_p", .vccs |gain m * C / 2|,
        ["VDD", fmt "X" m "_P", fmt "OUT" m "_P", fmt "OUT" m "_N"]⟩ : Line ℝ)) (fmt "X" m (sfx p)) t =
      if p then -(|gain m * C / 2| * diff sol (fmt "OUT" m "_P") (fmt "OUT" m "_N") t) else 0 := by
    rw [leaving_map, Finset.sum_eq_single m]
    · obtain ⟨g0, g1, g2, g3⟩ := h6 _ (List.mem_map_of_mem (List.mem_range.mpr hm)) t
      simp only at g0 g1 g2 g3
      rw [inflow_four, if_neg eD, g1, g0, g2, g3]
      simp only [eP]
      cases p <;> simp [diff]
    · intro j hj hjm
      obtain ⟨g0, g1, g2, g3⟩ := h6 _ (List.mem_map_of_mem (List.mem_range.mpr (Finset.mem_range.mp hj))) t
      simp only at g0 g1 g2 g3
      rw [inflow_four, if_neg eD, g2, g3]
      simp [eP, hjm]
    · intro h'
      exact absurd (Finset.mem_range.mpr hm) h'
  have z7 : leaving sol ((List.range M).map fun m => (⟨fmt "Ggm" m "_n", .vccs |gain m * C / 2|,
        [fmt "X" m "_N", "VSS", fmt "OUT" m "_P", fmt "OUT" m "_N"]⟩ : Line ℝ)) (fmt "X" m (sfx p)) t =
      if p then 0 else |gain m * C / 2| * diff sol (fmt "OUT" m "_P") (fmt "OUT" m "_N") t := by
    rw [leaving_map, Finset.sum_eq_single m]
    · obtain ⟨g0, g1, g2, g3⟩ := h7 _ (List.mem_map_of_mem (List.mem_range.mpr hm)) t
      simp only at g0 g1 g2 g3
      rw [inflow_four, if_neg eS, g0, g2, g3]
      simp only [eN]
      cases p <;> simp [diff]
    · intro j hj hjm
      obtain ⟨g0, g1, g2, g3⟩ := h7 _ (List.mem_map_of_mem (List.mem_range.mpr (Finset.mem_range.mp hj))) t
      simp only at g0 g1 g2 g3
      rw [inflow_four, if_neg eS, g2, g3]
      simp [eN, hjm]
    · intro h'
      exact absurd (Finset.mem_range.mpr hm) h'
  unfold lcNet
  rw [leaving_append, leaving_append, leaving_append, leaving_append, leaving_append, leaving_append, leaving_cons,
    leaving_nil, z1, z2, z3, z4, z5, z6, z7]
  cases p <;> simp <;> ring

/-- Circuit laws give the ladder. -/
theorem lcNet_ladder (M : ℕ) (L C Rin : ℝ) (gain : ℕ → ℝ) (hL : L ≠ 0) (hC : 0 < C) (hR : Rin ≠ 0) (law : Law) (sol : Sol)
    (hctl : ∀ v i, law "digital_control" v i → Senses M 1 M i)
    (hob : ∀ l ∈ lcNet M L C Rin gain, Obeys law sol l)
    (hk : ∀ m < M, ∀ p, Kirchhoff sol (lcNet M L C Rin gain) (fmt "X" m (sfx p))) :
    Ladder M (2 * L) C (2 * Rin) (fun m => |gain m| / 2) (fun m => diff sol (fmt "X" m "_P") (fmt "X" m "_N"))
      (fun k => sol.i (fmt "Lp_" k "") 0) (diff sol (fmt "IN" 0 "_P") (fmt "IN" 0 "_N"))
      (fun m => diff sol (fmt "OUT" m "_P") (fmt "OUT" m "_N")) := by
  -- the sum of the currents of both branches vanishes
  have hS : ∀ t, ∀ j < M, lcCur sol M true (M - 1 - j) t + lcCur sol M false (M - 1 - j) t = 0 := by
    intro t j
    induction j with
    | zero =>
      intro h
      rw [lcCur, lcCur, if_neg (by omega), if_neg (by omega), add_zero]
    | succ j ih =>
      intro h
      have hm : M - 1 - j < M := by omega
      obtain ⟨d, hd, e⟩ := lcNet_leaving M L C Rin gain law sol hctl hob _ hm true t
      obtain ⟨d', hd', e'⟩ := lcNet_leaving M L C Rin gain law sol hctl hob _ hm false t
      rw [hk _ hm true t] at e
      rw [hk _ hm false t] at e'
      rw [hd'.unique hd] at e'
      have h0 : M - 1 - j ≠ 0 := by omega
      rw [if_neg h0, if_neg h0] at e e'
      have i' := ih (by omega)
      have e2 : M - 1 - j - 1 = M - 1 - (j + 1) := by omega
      rw [e2] at e e'
      simp only [if_true, Bool.false_eq_true, if_false] at e e'
      linarith
  have hsum : ∀ t, ∀ m < M, lcCur sol M true m t + lcCur sol M false m t = 0 := by
    intro t m hm
    have := hS t (M - 1 - m) (by omega)
    rwa [show M - 1 - (M - 1 - m) = m by omega] at this
  refine ⟨?_, ?_⟩
  · intro m hm t
    obtain ⟨d, hd, e⟩ := lcNet_leaving M L C Rin gain law sol hctl hob m hm true t
    refine hd.congr_deriv ?_
    obtain ⟨d', hd', e'⟩ := lcNet_leaving M L C Rin gain law sol hctl hob m hm false t
    rw [hk _ hm true t] at e
    rw [hk _ hm false t, hd'.unique hd] at e'
    have hg : |gain m * C / 2| = C * (|gain m| / 2) := by
      rw [abs_div, abs_mul, abs_of_pos hC, abs_of_pos (two_pos : (0 : ℝ) < 2)]
      ring
    rw [hg] at e e'
    simp only [if_true, Bool.false_eq_true, if_false] at e e'
    have hc : (if m + 1 < M then sol.i (fmt "Lp_" m "") 0 t else 0) = lcCur sol M true m t := rfl
    rw [hc]
    have hs := hsum t m hm
    apply mul_left_cancel₀ hC.ne'
    rw [mul_add, mul_div_cancel₀ _ hC.ne']
    by_cases h0 : m = 0
    · subst h0
      simp only [if_true] at e e' ⊢
      have hin : (sol.v (fmt "IN" 0 (sfx true)) t - sol.v (fmt "X" 0 (sfx true)) t) / Rin =
          (diff sol (fmt "IN" 0 "_P") (fmt "IN" 0 "_N") t - diff sol (fmt "X" 0 "_P") (fmt "X" 0 "_N") t)
            / (2 * Rin) := by
        have h2 : (sol.v (fmt "IN" 0 (sfx true)) t - sol.v (fmt "X" 0 (sfx true)) t) / Rin +
          (sol.v (fmt "IN" 0 (sfx false)) t - sol.v (fmt "X" 0 (sfx false)) t) / Rin = 0 := by linarith
        rw [← add_div, div_eq_zero_iff, or_iff_left hR] at h2
        rw [div_eq_div_iff hR (mul_ne_zero two_ne_zero hR)]
        unfold diff
        have e1 : sol.v (fmt "IN" 0 "_N") t = sol.v (fmt "IN" 0 (sfx false)) t := rfl
        have e2 : sol.v (fmt "X" 0 "_N") t = sol.v (fmt "X" 0 (sfx false)) t := rfl
        have e3 : sol.v (fmt "IN" 0 "_P") t = sol.v (fmt "IN" 0 (sfx true)) t := rfl
        have e4 : sol.v (fmt "X" 0 "_P") t = sol.v (fmt "X" 0 (sfx true)) t := rfl
        rw [e1, e2, e3, e4]
        linear_combination Rin * h2
      rw [← hin]
      linarith
    · rw [if_neg h0, if_neg h0] at e
      rw [if_neg h0]
      have hc' : lcCur sol M true (m - 1) t = sol.i (fmt "Lp_" (m - 1) "") 0 t := by
        rw [lcCur, if_pos (by omega)]
        rfl
      change _ = sol.i (fmt "Lp_" (m - 1) "") 0 t - _ + C * (|gain m| / 2 * diff sol _ _ t)
      rw [← hc']
      linarith
  · intro k hk' t
    have hmem : ∀ p, (⟨lcInd p k, .ind L, [fmt "X" k (sfx p), fmt "X" (k + 1) (sfx p)]⟩ : Line ℝ) ∈
        lcNet M L C Rin gain := by
      intro p
      unfold lcNet
      cases p
      · refine List.mem_append_left _ (List.mem_append_left _ (List.mem_append_left _ (List.mem_append_left _
          (List.mem_append_right _ ?_))))
        exact List.mem_map_of_mem (f := fun i => (⟨fmt "Ln_" i "", .ind L, [fmt "X" i "_N", fmt "X" (i + 1) "_N"]⟩ : Line ℝ))
          (List.mem_range.mpr (by omega))
      · refine List.mem_append_left _ (List.mem_append_left _ (List.mem_append_left _ (List.mem_append_left _
          (List.mem_append_left _ (List.mem_append_right _ ?_)))))
        exact List.mem_map_of_mem (f := fun i => (⟨fmt "Lp_" i "", .ind L, [fmt "X" i "_P", fmt "X" (i + 1) "_P"]⟩ : Line ℝ))
          (List.mem_range.mpr (by omega))
    obtain ⟨d, hd, e, _⟩ := hob _ (hmem true) t
    obtain ⟨d', hd', e', _⟩ := hob _ (hmem false) t
    have hi : sol.i (lcInd false k) 0 = fun t => - sol.i (lcInd true k) 0 t := by
      funext z
      have := hsum z k (by omega)
      rw [lcCur, lcCur, if_pos hk', if_pos hk'] at this
      linarith
    have hdd : d' = -d := by
      have h1 := hd.neg
      refine HasDerivAt.unique hd' (h1.congr_of_eventuallyEq (Filter.Eventually.of_forall fun z => ?_))
      exact congrFun hi z
    refine HasDerivAt.congr_deriv (f := sol.i (fmt "Lp_" k "") 0) hd ?_
    rw [hdd] at e'
    rw [eq_div_iff (mul_ne_zero two_ne_zero hL)]
    unfold diff
    have e1 : sol.v (fmt "X" k "_P") t - sol.v (fmt "X" (k + 1) "_P") t = L * d := e
    have e2 : sol.v (fmt "X" k "_N") t - sol.v (fmt "X" (k + 1) "_N") t = L * -d := e'
    linarith

theorem lcInd_inj {p q : Bool} {k j : ℕ} (h : lcInd p k = lcInd q j) : p = q ∧ k = j := by
  cases p <;> cases q <;> simp only [lcInd, if_true, Bool.false_eq_true, if_false] at h <;> names at h <;>
    exact ⟨rfl, h⟩

open Classical in
/-- Currents of the LC frontend for given potentials and inductor currents. -/
noncomputable def lcCurrents (net : List (Line ℝ)) (v : String → ℝ → ℝ) (i : ℕ → ℝ → ℝ) (e : String) (n : ℕ) : ℝ → ℝ :=
  if h : ∃ q : Bool × ℕ, lcInd q.1 q.2 = e then
    fun t => (if h.choose.1 then 1 else -1) * (if n = 0 then 1 else -1) * i h.choose.2 t
  else currents net v e n

theorem lcCurrents_ind (net : List (Line ℝ)) (v : String → ℝ → ℝ) (i : ℕ → ℝ → ℝ) (p : Bool) (k n : ℕ) :
    lcCurrents net v i (lcInd p k) n = fun t => (if p then 1 else -1) * (if n = 0 then 1 else -1) * i k t := by
  have h : ∃ q : Bool × ℕ, lcInd q.1 q.2 = lcInd p k := ⟨(p, k), rfl⟩
  unfold lcCurrents
  rw [dif_pos h]
  obtain ⟨h1, h2⟩ := lcInd_inj h.choose_spec
  rw [h1, h2]

theorem lcCurrents_other (net : List (Line ℝ)) (v : String → ℝ → ℝ) (i : ℕ → ℝ → ℝ) (e : String)
    (he : ∀ p k, lcInd p k ≠ e) : lcCurrents net v i e = currents net v e := by
  funext n
  unfold lcCurrents
  rw [dif_neg]
  rintro ⟨q, hq⟩
  exact he _ _ hq

/-- Every behaviour of the ladder is one of the netlist. -/
theorem lcNet_realisable (M : ℕ) (L C Rin : ℝ) (gain : ℕ → ℝ) (hL : L ≠ 0) (hC : 0 < C) (hR : Rin ≠ 0)
    (hnd : ((lcNet M L C Rin gain).map Line.inst).Nodup) (v i : ℕ → ℝ → ℝ) (u : ℝ → ℝ) (s : ℕ → ℝ → ℝ)
    (h : Ladder M (2 * L) C (2 * Rin) (fun m => |gain m| / 2) v i u s) :
    ∃ (law : Law) (sol : Sol),
      (∀ v i, law "digital_control" v i → Senses M 1 M i) ∧
      (∀ l ∈ lcNet M L C Rin gain, Obeys law sol l) ∧
      (∀ m < M, ∀ p, Kirchhoff sol (lcNet M L C Rin gain) (fmt "X" m (sfx p))) ∧
      (∀ m, diff sol (fmt "X" m "_P") (fmt "X" m "_N") = v m) ∧
      (∀ k, sol.i (fmt "Lp_" k "") 0 = i k) ∧
      diff sol (fmt "IN" 0 "_P") (fmt "IN" 0 "_N") = u ∧
      ∀ m, diff sol (fmt "OUT" m "_P") (fmt "OUT" m "_N") = s m := by
  obtain ⟨hv, hi⟩ := h
  let law : Law := fun _ _ i => Senses M 1 M i
  let pot := potential v (fun _ => u) s
  let sol : Sol := ⟨pot, lcCurrents (lcNet M L C Rin gain) pot i⟩
  have hX : ∀ n p, pot (fmt "X" n (sfx p)) = fun t => if p then v n t / 2 else - (v n t / 2) :=
    fun n p => potential_signal v (fun _ => u) s (.x p n)
  have hU : ∀ n p, pot (fmt "IN" n (sfx p)) = fun t => if p then u t / 2 else - (u t / 2) :=
    fun n p => potential_signal v (fun _ => u) s (.u p n)
  have hS : ∀ n p, pot (fmt "OUT" n (sfx p)) = fun t => if p then s n t / 2 else - (s n t / 2) :=
    fun n p => potential_signal v (fun _ => u) s (.s p n)
  have dX : ∀ m, diff sol (fmt "X" m "_P") (fmt "X" m "_N") = v m := by
    intro m
    funext t
    change pot (fmt "X" m (sfx true)) t - pot (fmt "X" m (sfx false)) t = _
    rw [hX, hX]
    simp
  have dU : diff sol (fmt "IN" 0 "_P") (fmt "IN" 0 "_N") = u := by
    funext t
    change pot (fmt "IN" 0 (sfx true)) t - pot (fmt "IN" 0 (sfx false)) t = _
    rw [hU, hU]
    simp
  have dS : ∀ m, diff sol (fmt "OUT" m "_P") (fmt "OUT" m "_N") = s m := by
    intro m
    funext t
    change pot (fmt "OUT" m (sfx true)) t - pot (fmt "OUT" m (sfx false)) t = _
    rw [hS, hS]
    simp
  have hLc : ∀ p k, sol.i (lcInd p k) 0 = fun t => (if p then 1 else -1) * i k t := by
    intro p k
    change lcCurrents _ _ _ _ _ = _
    rw [lcCurrents_ind]
    simp
  have hob : ∀ l ∈ lcNet M L C Rin gain, Obeys law sol l := by
    intro l hl
    have hcur : (∀ p k, lcInd p k ≠ l.inst) → sol.i l.inst = current pot l := fun he =>
      (lcCurrents_other _ _ _ _ he).trans (currents_eq hnd _ hl)
    have hl' := hl
    unfold lcNet at hl'
    simp only [List.mem_append, List.mem_map, List.mem_range, List.mem_cons, List.not_mem_nil, or_false] at hl'
    have hne : ∀ e, (∀ k, fmt "Lp_" k "" ≠ e) → (∀ k, fmt "Ln_" k "" ≠ e) → ∀ p k, lcInd p k ≠ e := by
      intro e h1 h2 p k
      cases p
      · exact h2 k
      · exact h1 k
    have hindu : ∀ p k, k + 1 < M → Obeys law sol
        ⟨lcInd p k, .ind L, [fmt "X" k (sfx p), fmt "X" (k + 1) (sfx p)]⟩ := by
      intro p k hk t
      refine ⟨(if p then 1 else -1) * ((v k t - v (k + 1) t) / (2 * L)), ?_, ?_, ?_⟩
      · change HasDerivAt (sol.i (lcInd p k) 0) _ t
        rw [hLc]
        exact (hi k hk t).const_mul _
      · change pot _ t - pot _ t = _
        rw [hX, hX]
        cases p
        · simp; field_simp; ring
        · simp; field_simp
      · change lcCurrents _ _ _ _ _ _ = - lcCurrents _ _ _ _ _ _
        rw [lcCurrents_ind, lcCurrents_ind]
        simp
    rcases hl' with (((((rfl | ⟨k, hk, rfl⟩) | ⟨k, hk, rfl⟩) | ⟨m, hm, rfl⟩) | (rfl | rfl)) | ⟨m, hm, rfl⟩) | ⟨m, hm, rfl⟩
    · change Senses M 1 M (sol.i "Xdc")
      have : sol.i "Xdc" = current pot _ := hcur (hne _ (fun k e => by names at e) (fun k e => by names at e))
      rw [this]
      intro _ _ _ _
      rfl
    · exact hindu true k (by omega)
    · exact hindu false k (by omega)
    · have hc := hcur (hne _ (fun k e => by names at e) (fun k e => by names at e))
      intro t
      have hd := hv m hm t
      rw [← dX m] at hd
      refine ⟨_, hd, ?_, ?_⟩
      · rw [hc, ← hd.deriv]; rfl
      · rw [hc]; rfl
    · have hc := hcur (hne _ (fun k e => by names at e) (fun k e => by names at e))
      intro t
      rw [hc]
      exact ⟨rfl, rfl⟩
    · have hc := hcur (hne _ (fun k e => by names at e) (fun k e => by names at e))
      intro t
      rw [hc]
      exact ⟨rfl, rfl⟩
    · have hc := hcur (hne _ (fun k e => by names at e) (fun k e => by names at e))
      intro t
      rw [hc]
      exact ⟨rfl, rfl, rfl, rfl⟩
    · have hc := hcur (hne _ (fun k e => by names at e) (fun k e => by names at e))
      intro t
      rw [hc]
      exact ⟨rfl, rfl, rfl, rfl⟩
  refine ⟨law, sol, fun _ _ h => h, hob, ?_, dX, ?_, dU, dS⟩
  · intro m hm p t
    obtain ⟨d, hd, e⟩ := lcNet_leaving M L C Rin gain law sol (fun _ _ h => h) hob m hm p t
    rw [dX] at hd
    rw [e, hd.unique (hv m hm t), dS]
    have hg : |gain m * C / 2| = C * (|gain m| / 2) := by
      rw [abs_div, abs_mul, abs_of_pos hC, abs_of_pos (two_pos : (0 : ℝ) < 2)]
      ring
    have hcc : ∀ k, lcCur sol M p k t = (if p then 1 else -1) * (if k + 1 < M then i k t else 0) := by
      intro k
      unfold lcCur
      rw [hLc]
      split_ifs <;> simp
    have e1 : sol.v (fmt "IN" 0 (sfx p)) t = if p then u t / 2 else - (u t / 2) := congrFun (hU 0 p) t
    have e2 : sol.v (fmt "X" 0 (sfx p)) t = if p then v 0 t / 2 else - (v 0 t / 2) := congrFun (hX 0 p) t
    rw [hg, hcc, hcc, e1, e2]
    by_cases h0 : m = 0
    · subst h0
      generalize (if 0 + 1 < M then i 0 t else 0) = j
      cases p <;> simp <;> field_simp <;> ring
    · have e3 : m - 1 + 1 < M := by omega
      simp only [if_neg h0, if_pos e3]
      generalize (if m + 1 < M then i m t else 0) = j
      cases p <;> simp <;> field_simp <;> ring
  · intro k
    have := hLc true k
    simpa [lcInd] using this

end Cbadc.Circuit
