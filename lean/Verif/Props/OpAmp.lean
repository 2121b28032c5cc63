import Verif.Lemmas.OpAmp
import Mathlib.Tactic.NormNum
import Mathlib.Tactic.FinCases

/-!
# C52: the op-amp frontend integrates the state equation
-/

namespace Cbadc.Circuit

open Spec

/-- The currents drawn from a virtual ground node by one group of resistors. -/
theorem resNet_leaving (law : Law) (sol : Sol) (kd : Kind) (N J : ℕ) (F : ℕ → ℕ → ℝ) (C : ℝ)
    (h : ∀ l ∈ resNet kd N J F C, Obeys law sol l) (n : ℕ) (hn : n < N) (p : Bool) (t : ℝ) :
    leaving sol (resNet kd N J F C) (fmt "VGND_" n (sfx p)) t =
      ∑ j ∈ Finset.range J, C * |F n j| * (sol.v (fmt "VGND_" n (sfx p)) t
        - sol.v (fmt kd.src j (sfx (if F n j < 0 then p else !p))) t) := by
  have key : ∀ m < N, ∀ j < J, leaving sol
      (if F m j ≠ 0 then
        [⟨"Rp_" ++ fmt2 kd.pre m j, .res (1 / (1 * C * |F m j|)),
            [fmt kd.src j "_P", fmt "VGND_" m (if F m j < 0 then "_P" else "_N")]⟩,
         ⟨"Rn_" ++ fmt2 kd.pre m j, .res (1 / (1 * C * |F m j|)),
            [fmt kd.src j "_N", fmt "VGND_" m (if F m j < 0 then "_N" else "_P")]⟩]
      else []) (fmt "VGND_" n (sfx p)) t =
      if m = n then C * |F n j| * (sol.v (fmt "VGND_" n (sfx p)) t
        - sol.v (fmt kd.src j (sfx (if F n j < 0 then p else !p))) t) else 0 := by
    intro m hm j hj
    have hs : ∀ s r, fmt kd.src j s ≠ fmt "VGND_" n r := by
      intro s r e
      cases kd <;> (simp only [Kind.src] at e; names at e)
    have hv : ∀ q : Bool, fmt "VGND_" m (sfx q) = fmt "VGND_" n (sfx p) ↔ m = n ∧ q = p := by
      intro q
      constructor
      · intro e
        cases p <;> cases q <;> simp only [sfx] at e <;> names at e <;> simp [e]
      · rintro ⟨rfl, rfl⟩; rfl
    by_cases h0 : F m j ≠ 0
    · have hm1 : ∀ l ∈ [(⟨"Rp_" ++ fmt2 kd.pre m j, .res (1 / (1 * C * |F m j|)),
            [fmt kd.src j "_P", fmt "VGND_" m (if F m j < 0 then "_P" else "_N")]⟩ : Line ℝ),
         ⟨"Rn_" ++ fmt2 kd.pre m j, .res (1 / (1 * C * |F m j|)),
            [fmt kd.src j "_N", fmt "VGND_" m (if F m j < 0 then "_N" else "_P")]⟩],
          Obeys law sol l := by
        intro l hl
        apply h l
        refine List.mem_flatMap.mpr ⟨m, List.mem_range.mpr hm, List.mem_flatMap.mpr
          ⟨j, List.mem_range.mpr hj, ?_⟩⟩
        rw [if_pos h0]
        exact hl
      rw [if_pos h0]
      have o1 := hm1 _ (List.mem_cons_self)
      have o2 := hm1 _ (List.mem_cons_of_mem _ (List.mem_singleton_self _))
      obtain ⟨a1, a2⟩ := o1 t
      obtain ⟨b1, b2⟩ := o2 t
      simp only [div_div_eq_mul_div, div_one, one_mul] at a1 a2 b1 b2
      rw [leaving_cons, leaving_cons, leaving_nil, inflow_two, inflow_two, if_neg (hs _ _),
        if_neg (hs _ _)]
      have eP : "_P" = sfx true := rfl
      have eN : "_N" = sfx false := rfl
      by_cases hneg : F m j < 0
      · simp only [if_pos hneg] at a1 b1 ⊢
        rw [eP, eN]
        simp only [hv]
        rw [a2, b2, a1, b1, eP, eN]
        by_cases hmn : m = n
        · subst hmn
          rw [if_pos rfl, if_pos hneg]
          cases p <;> simp <;> ring
        · simp [hmn]
      · simp only [if_neg hneg] at a1 b1 ⊢
        rw [eP, eN]
        simp only [hv]
        rw [a2, b2, a1, b1, eP, eN]
        by_cases hmn : m = n
        · subst hmn
          rw [if_pos rfl, if_neg hneg]
          cases p <;> simp <;> ring
        · simp [hmn]
    · rw [if_neg h0, leaving_nil]
      push Not at h0
      by_cases e : m = n
      · subst e
        rw [if_pos rfl, h0]
        simp
      · rw [if_neg e]
  unfold resNet
  rw [leaving_flatMap, Finset.sum_eq_single n]
  · rw [leaving_flatMap]
    apply Finset.sum_congr rfl
    intro j hj
    rw [key n hn j (Finset.mem_range.mp hj), if_pos rfl]
  · intro m hm hmn
    rw [leaving_flatMap]
    apply Finset.sum_eq_zero
    intro j hj
    rw [key m (Finset.mem_range.mp hm) j (Finset.mem_range.mp hj), if_neg hmn]
  · intro h'
    exact absurd (Finset.mem_range.mpr hn) h'

theorem ctl_not_ground (N L M n : ℕ) (p : Bool) :
    fmt "VGND_" n (sfx p) ∉ (controlPins N L M).map OaPart.ctl.hubPin := by
  intro h
  rw [List.mem_map] at h
  obtain ⟨s, hs, e⟩ := h
  simp only [controlPins, List.mem_append, List.mem_cons, List.not_mem_nil, or_false, List.mem_map,
    List.mem_range] at hs
  have h4 : ∀ z, z ∈ ["VSS", "VDD", "CLK", "VCM"] → OaPart.ctl.hubPin z ∈ ["VSS", "VDD", "CLK", "VCM"] := by
    intro z hz
    fin_cases hz <;> decide
  have n4 : ∀ z, z ∈ ["VSS", "VDD", "CLK", "VCM"] → z ≠ fmt "VGND_" n (sfx p) := by
    intro z hz e
    fin_cases hz <;> names at e
  rcases hs with ((((((hs | hs | hs | hs) | ⟨n, hn, rfl⟩) | ⟨n, hn, rfl⟩) | ⟨n, hn, rfl⟩) |
    ⟨n, hn, rfl⟩) | ⟨n, hn, rfl⟩) | ⟨n, hn, rfl⟩
  iterate 4 exact n4 _ (h4 s (by simp [hs])) e
  · rw [hubPin_x] at e; names at e
  · rw [hubPin_x] at e; names at e
  · rw [hubPin_in] at e; names at e
  · rw [hubPin_in] at e; names at e
  · rw [hubPin_s] at e; names at e
  · rw [hubPin_s] at e; names at e

/-- The current drawn from a virtual ground node by all devices, provided that they obey their laws
and that the op-amps draw no current at their inputs. -/
theorem oaNet_leaving (law : Law) (sol : Sol) (S : Analog.Sys ℝ) (G : ℕ → ℕ → ℝ) (C : ℝ)
    (hop : ∀ v i, law "opamp" v i → i 3 = 0 ∧ i 4 = 0)
    (h : ∀ l ∈ oaNet S G C, Obeys law sol l) (n : ℕ) (hn : n < S.N) (p : Bool) (t : ℝ) :
    ∃ d, HasDerivAt (fun x => sol.v (fmt "VGND_" n (sfx p)) x - sol.v (fmt "X" n (sfx p)) x) d t ∧
      leaving sol (oaNet S G C) (fmt "VGND_" n (sfx p)) t =
        ∑ j ∈ Finset.range S.L, C * |S.B n j| * (sol.v (fmt "VGND_" n (sfx p)) t
          - sol.v (fmt "IN" j (sfx (if S.B n j < 0 then p else !p))) t)
        + ∑ j ∈ Finset.range S.N, C * |S.A n j| * (sol.v (fmt "VGND_" n (sfx p)) t
          - sol.v (fmt "X" j (sfx (if S.A n j < 0 then p else !p))) t)
        + ∑ j ∈ Finset.range S.M, C * |G n j| * (sol.v (fmt "VGND_" n (sfx p)) t
          - sol.v (fmt "OUT" j (sfx (if G n j < 0 then p else !p))) t)
        + C * d := by
  unfold oaNet at h ⊢
  simp only [List.mem_append, or_imp, forall_and] at h
  obtain ⟨⟨⟨⟨⟨⟨_, hB⟩, hA⟩, hG⟩, hO⟩, hP⟩, hN⟩ := h
  have oP : ∀ m < S.N, Obeys law sol ⟨fmt "Cp_" m "", .cap C, [fmt "VGND_" m "_P", fmt "X" m "_P"]⟩ :=
    fun m hm => hP _ (List.mem_map.mpr ⟨m, List.mem_range.mpr hm, rfl⟩)
  have oN : ∀ m < S.N, Obeys law sol ⟨fmt "Cn_" m "", .cap C, [fmt "VGND_" m "_N", fmt "X" m "_N"]⟩ :=
    fun m hm => hN _ (List.mem_map.mpr ⟨m, List.mem_range.mpr hm, rfl⟩)
  have oO : ∀ m < S.N, Obeys law sol ⟨fmt "Xop_" m "", .sub "opamp",
      ["VDD", "VSS", "VCM", fmt "VGND_" m "_P", fmt "VGND_" m "_N", fmt "X" m "_P", fmt "X" m "_N"]⟩ :=
    fun m hm => hO _ (List.mem_map.mpr ⟨m, List.mem_range.mpr hm, rfl⟩)
  -- the control and the op-amps draw nothing
  have z1 : leaving sol [(⟨"Xdc", .sub "digital_control",
      (controlPins S.N S.L S.M).map OaPart.ctl.hubPin⟩ : Line ℝ)] (fmt "VGND_" n (sfx p)) t = 0 := by
    rw [leaving_cons, leaving_nil, inflow_notMem _ _ _ _ (ctl_not_ground _ _ _ _ _), add_zero]
  have z2 : leaving sol ((List.range S.N).map fun m => (⟨fmt "Xop_" m "", .sub "opamp",
      ["VDD", "VSS", "VCM", fmt "VGND_" m "_P", fmt "VGND_" m "_N", fmt "X" m "_P",
        fmt "X" m "_N"]⟩ : Line ℝ)) (fmt "VGND_" n (sfx p)) t = 0 := by
    rw [leaving_map]
    apply Finset.sum_eq_zero
    intro m hm
    obtain ⟨i3, i4⟩ := hop _ _ (oO m (Finset.mem_range.mp hm))
    apply inflow_zero
    intro k b hk e
    subst e
    match k, hk with
    | 0, hk => simp at hk; names at hk
    | 1, hk => simp at hk; names at hk
    | 2, hk => simp at hk; names at hk
    | 3, _ => exact congrFun i3 t
    | 4, _ => exact congrFun i4 t
    | 5, hk => simp at hk; names at hk
    | 6, hk => simp at hk; names at hk
    | k + 7, hk => simp at hk
  have hx : ∀ m q r, fmt "X" m q ≠ fmt "VGND_" n r := by
    intro m q r e
    names at e
  have hv : ∀ m (q : Bool), fmt "VGND_" m (sfx q) = fmt "VGND_" n (sfx p) ↔ m = n ∧ q = p := by
    intro m q
    constructor
    · intro e
      cases p <;> cases q <;> simp only [sfx] at e <;> names at e <;> simp [e]
    · rintro ⟨rfl, rfl⟩; rfl
  have eP : "_P" = sfx true := rfl
  have eN : "_N" = sfx false := rfl
  have z3 : leaving sol ((List.range S.N).map fun m => (⟨fmt "Cp_" m "", .cap C,
      [fmt "VGND_" m "_P", fmt "X" m "_P"]⟩ : Line ℝ)) (fmt "VGND_" n (sfx p)) t =
      if p then sol.i (fmt "Cp_" n "") 0 t else 0 := by
    rw [leaving_map, Finset.sum_eq_single n]
    · rw [inflow_two, if_neg (hx _ _ _), eP, add_zero]
      simp only [hv]
      cases p <;> simp
    · intro m _ hmn
      rw [inflow_two, if_neg (hx _ _ _), eP, if_neg (by rw [hv]; exact fun e => hmn e.1), add_zero]
    · intro h'
      exact absurd (Finset.mem_range.mpr hn) h'
  have z4 : leaving sol ((List.range S.N).map fun m => (⟨fmt "Cn_" m "", .cap C,
      [fmt "VGND_" m "_N", fmt "X" m "_N"]⟩ : Line ℝ)) (fmt "VGND_" n (sfx p)) t =
      if p then 0 else sol.i (fmt "Cn_" n "") 0 t := by
    rw [leaving_map, Finset.sum_eq_single n]
    · rw [inflow_two, if_neg (hx _ _ _), eN, add_zero]
      cases p
      · rw [if_pos rfl]; rfl
      · rw [if_neg (by rw [hv]; simp)]; rfl
    · intro m _ hmn
      rw [inflow_two, if_neg (hx _ _ _), eN, if_neg (by rw [hv]; exact fun e => hmn e.1), add_zero]
    · intro h'
      exact absurd (Finset.mem_range.mpr hn) h'
  obtain ⟨d, hd, hi⟩ : ∃ d, HasDerivAt (fun x => sol.v (fmt "VGND_" n (sfx p)) x
      - sol.v (fmt "X" n (sfx p)) x) d t ∧
      (if p then sol.i (fmt "Cp_" n "") 0 t else 0) + (if p then 0 else sol.i (fmt "Cn_" n "") 0 t) =
        C * d := by
    cases p
    · obtain ⟨d, h1, h2, _⟩ := oN n hn t
      exact ⟨d, h1, by simpa using h2⟩
    · obtain ⟨d, h1, h2, _⟩ := oP n hn t
      exact ⟨d, h1, by simpa using h2⟩
  refine ⟨d, hd, ?_⟩
  simp only [leaving_append]
  rw [z1, z2, z3, z4, resNet_leaving law sol _ _ _ _ _ hB n hn, resNet_leaving law sol _ _ _ _ _ hA n hn,
    resNet_leaving law sol _ _ _ _ _ hG n hn, ← hi]
  simp only [Kind.src]
  ring

/-- Two opposite contributions of a group of resistors. -/
theorem group_diff (J : ℕ) (F : ℕ → ℝ) (C : ℝ) (vg : ℝ) (w : ℕ → Bool → ℝ) :
    ∑ j ∈ Finset.range J, C * |F j| * (vg - w j (if F j < 0 then true else !true))
      - ∑ j ∈ Finset.range J, C * |F j| * (vg - w j (if F j < 0 then false else !false))
      = C * ∑ j ∈ Finset.range J, F j * (w j true - w j false) := by
  rw [← Finset.sum_sub_distrib, Finset.mul_sum]
  apply Finset.sum_congr rfl
  intro j _
  by_cases h : F j < 0
  · rw [if_pos h, if_pos h, abs_of_neg h]
    ring
  · rw [if_neg h, if_neg h, abs_of_nonneg (not_lt.mp h)]
    simp only [Bool.not_true, Bool.not_false]
    ring

/-- **C52.**  Whatever the system matrices, the constructor of the op-amp frontend succeeds, and
every behaviour of the circuit described by its netlist (all devices obey their laws, Kirchhoff's
law holds at the virtual grounds, the op-amps are ideal) satisfies the state equation
`dx/dt = A x + B u + Γ s` for the differential voltages. -/
theorem C52_state_equation (ids : String → ℕ → String) (S : Analog.Sys ℝ) (C : ℝ) (hC : C ≠ 0) :
    (S.Gamma = none → opampFrontend ids S C = .error .exception) ∧
    ∀ G, S.Gamma = some G → ∃ s, opampFrontend ids S C = .ok s ∧
      ∀ (law : Law) (sol : Sol), (∀ v i, law "opamp" v i → IdealOpamp v i) →
        (∀ l ∈ s.netlist (Obj.name ids), Obeys law sol l) →
        (∀ n < S.N, Kirchhoff sol (s.netlist (Obj.name ids)) (fmt "VGND_" n "_P") ∧
          Kirchhoff sol (s.netlist (Obj.name ids)) (fmt "VGND_" n "_N")) →
        StateEquation S.N S.L S.M S.A S.B G
          (fun n => diff sol (fmt "X" n "_P") (fmt "X" n "_N"))
          (fun l => diff sol (fmt "IN" l "_P") (fmt "IN" l "_N"))
          (fun m => diff sol (fmt "OUT" m "_P") (fmt "OUT" m "_N")) := by
  refine ⟨fun hG => by unfold opampFrontend; rw [hG], ?_⟩
  intro G hG
  obtain ⟨s, hs, hnet, _⟩ := opamp_netlist ids S G hG C
  refine ⟨s, hs, ?_⟩
  rw [hnet]
  intro law sol hop hob hk n hn t
  obtain ⟨dp, hdp, ep⟩ := oaNet_leaving law sol S G C (fun v i h => (hop v i h).2) hob n hn true t
  obtain ⟨dn, hdn, en⟩ := oaNet_leaving law sol S G C (fun v i h => (hop v i h).2) hob n hn false t
  have kp := (hk n hn).1 t
  have kn := (hk n hn).2 t
  change leaving sol (oaNet S G C) (fmt "VGND_" n (sfx true)) t = 0 at kp
  change leaving sol (oaNet S G C) (fmt "VGND_" n (sfx false)) t = 0 at kn
  rw [ep] at kp
  rw [en] at kn
  -- both virtual grounds are at the same potential
  have hvg : sol.v (fmt "VGND_" n "_P") = sol.v (fmt "VGND_" n "_N") := by
    have hl := hob ⟨fmt "Xop_" n "", .sub "opamp",
      ["VDD", "VSS", "VCM", fmt "VGND_" n "_P", fmt "VGND_" n "_N", fmt "X" n "_P", fmt "X" n "_N"]⟩
      (by
        unfold oaNet
        simp only [List.mem_append]
        exact Or.inl (Or.inl (Or.inr (List.mem_map.mpr ⟨n, List.mem_range.mpr hn, rfl⟩))))
    exact (hop _ _ hl).1
  have hvg' : sol.v (fmt "VGND_" n (sfx true)) = sol.v (fmt "VGND_" n (sfx false)) := hvg
  rw [hvg'] at kp hdp
  have g1 := group_diff S.L (S.B n) C (sol.v (fmt "VGND_" n (sfx false)) t)
    (fun j q => sol.v (fmt "IN" j (sfx q)) t)
  have g2 := group_diff S.N (S.A n) C (sol.v (fmt "VGND_" n (sfx false)) t)
    (fun j q => sol.v (fmt "X" j (sfx q)) t)
  have g3 := group_diff S.M (G n) C (sol.v (fmt "VGND_" n (sfx false)) t)
    (fun j q => sol.v (fmt "OUT" j (sfx q)) t)
  have hd := hdn.sub hdp
  have e : dn - dp = ∑ j ∈ Finset.range S.N, S.A n j * (sol.v (fmt "X" j (sfx true)) t
        - sol.v (fmt "X" j (sfx false)) t)
      + ∑ j ∈ Finset.range S.L, S.B n j * (sol.v (fmt "IN" j (sfx true)) t
        - sol.v (fmt "IN" j (sfx false)) t)
      + ∑ j ∈ Finset.range S.M, G n j * (sol.v (fmt "OUT" j (sfx true)) t
        - sol.v (fmt "OUT" j (sfx false)) t) := by
    apply mul_left_cancel₀ hC
    linear_combination kn - kp + g1 + g2 + g3
  rw [e] at hd
  refine HasDerivAt.congr_deriv (f := _) (HasDerivAt.congr_of_eventuallyEq hd ?_) rfl
  refine Filter.Eventually.of_forall ?_
  intro x
  simp only [diff, sfx]
  change sol.v (fmt "X" n "_P") x - sol.v (fmt "X" n "_N") x =
    (sol.v (fmt "VGND_" n "_N") x - sol.v (fmt "X" n "_N") x) -
      (sol.v (fmt "VGND_" n "_N") x - sol.v (fmt "X" n "_P") x)
  ring

/-- The nodes that carry the signals. -/
inductive Signal
  | x (p : Bool) (n : ℕ)
  | u (p : Bool) (n : ℕ)
  | s (p : Bool) (n : ℕ)

/-- Their names. -/
def Signal.name : Signal → String
  | .x p n => fmt "X" n (sfx p)
  | .u p n => fmt "IN" n (sfx p)
  | .s p n => fmt "OUT" n (sfx p)

theorem Signal.name_inj : Function.Injective Signal.name := by
  intro a b h
  rcases a with ⟨p, n⟩ | ⟨p, n⟩ | ⟨p, n⟩ <;> rcases b with ⟨q, m⟩ | ⟨q, m⟩ | ⟨q, m⟩ <;>
    cases p <;> cases q <;> simp only [Signal.name, sfx] at h <;> names at h <;> rw [h]

/-- Half of a signal on the positive node and minus half of it on the negative one. -/
noncomputable def Signal.half (x u s : ℕ → ℝ → ℝ) : Signal → ℝ → ℝ
  | .x p n, t => if p then x n t / 2 else - (x n t / 2)
  | .u p n, t => if p then u n t / 2 else - (u n t / 2)
  | .s p n, t => if p then s n t / 2 else - (s n t / 2)

open Classical in
/-- Potentials of all nodes for given signals; all other nodes are at zero. -/
noncomputable def potential (x u s : ℕ → ℝ → ℝ) (a : String) : ℝ → ℝ :=
  if h : ∃ q : Signal, q.name = a then h.choose.half x u s else 0

theorem potential_signal (x u s : ℕ → ℝ → ℝ) (q : Signal) :
    potential x u s q.name = q.half x u s := by
  have h : ∃ r : Signal, r.name = q.name := ⟨q, rfl⟩
  unfold potential
  rw [dif_pos h, Signal.name_inj h.choose_spec]

theorem potential_ground (x u s : ℕ → ℝ → ℝ) (n : ℕ) (p : Bool) :
    potential x u s (fmt "VGND_" n (sfx p)) = 0 := by
  unfold potential
  rw [dif_neg]
  rintro ⟨q, hq⟩
  rcases q with ⟨q, m⟩ | ⟨q, m⟩ | ⟨q, m⟩ <;> cases p <;> cases q <;>
    simp only [Signal.name, sfx] at hq <;> names at hq

/-- The contribution of a group of resistors for symmetric potentials around zero. -/
theorem group_half (J : ℕ) (F : ℕ → ℝ) (C : ℝ) (p : Bool) (w : ℕ → ℝ) :
    ∑ j ∈ Finset.range J, C * |F j| * (0 - if (if F j < 0 then p else !p) then w j / 2
        else - (w j / 2)) =
      C * ((if p then 1 else -1) * ((∑ j ∈ Finset.range J, F j * w j) / 2)) := by
  rw [div_eq_mul_inv, Finset.sum_mul, Finset.mul_sum, Finset.mul_sum]
  apply Finset.sum_congr rfl
  intro j _
  by_cases h : F j < 0
  · rw [if_pos h, abs_of_neg h]
    cases p <;> simp <;> ring
  · rw [if_neg h, abs_of_nonneg (not_lt.mp h)]
    cases p <;> simp <;> ring

/-- Every solution of the state equation is a behaviour of the circuit, with symmetric potentials and a digital
control that draws no current. -/
theorem opamp_realise (ids : String → ℕ → String) (S : Analog.Sys ℝ) (C : ℝ)
    (G : ℕ → ℕ → ℝ) (hG : S.Gamma = some G) (x u s : ℕ → ℝ → ℝ)
    (hx : StateEquation S.N S.L S.M S.A S.B G x u s) :
    ∃ c, opampFrontend ids S C = .ok c ∧ ∃ sol : Sol, sol.v = potential x u s ∧ sol.i "Xdc" = (fun _ _ => 0) ∧
      (∀ l ∈ c.netlist (Obj.name ids), Obeys (fun name v i => name = "opamp" → IdealOpamp v i) sol l) ∧
      ∀ n < S.N, Kirchhoff sol (c.netlist (Obj.name ids)) (fmt "VGND_" n "_P") ∧
        Kirchhoff sol (c.netlist (Obj.name ids)) (fmt "VGND_" n "_N") := by
  obtain ⟨c, hc, hnet, hnd⟩ := opamp_netlist ids S G hG C
  rw [← netlist_insts (Obj.name ids), hnet] at hnd
  refine ⟨c, hc, ?_⟩
  rw [hnet]
  let law : Law := fun name v i => name = "opamp" → IdealOpamp v i
  let sol : Sol := ⟨potential x u s, currents (oaNet S G C) (potential x u s)⟩
  have hop : ∀ v i, law "opamp" v i → IdealOpamp v i := fun v i h => h rfl
  have hX : ∀ n p, potential x u s (fmt "X" n (sfx p)) = (Signal.x p n).half x u s :=
    fun n p => potential_signal x u s (.x p n)
  have hU : ∀ n p, potential x u s (fmt "IN" n (sfx p)) = (Signal.u p n).half x u s :=
    fun n p => potential_signal x u s (.u p n)
  have hS : ∀ n p, potential x u s (fmt "OUT" n (sfx p)) = (Signal.s p n).half x u s :=
    fun n p => potential_signal x u s (.s p n)
  have hV : ∀ n p, potential x u s (fmt "VGND_" n (sfx p)) = 0 := potential_ground x u s
  have hxh : ∀ n < S.N, ∀ (p : Bool) t, HasDerivAt
      (fun z => potential x u s (fmt "VGND_" n (sfx p)) z - potential x u s (fmt "X" n (sfx p)) z)
      (- ((if p then 1 else -1) * ((∑ j ∈ Finset.range S.N, S.A n j * x j t
        + ∑ l ∈ Finset.range S.L, S.B n l * u l t + ∑ m ∈ Finset.range S.M, G n m * s m t) / 2))) t := by
    intro n hn p t
    have h := ((hx n hn t).div_const 2)
    rw [hV, hX]
    cases p
    · refine (h.congr_deriv (by simp)).congr_of_eventuallyEq (Filter.Eventually.of_forall ?_)
      intro z
      simp [Signal.half]
    · refine (h.neg.congr_deriv (by simp)).congr_of_eventuallyEq (Filter.Eventually.of_forall ?_)
      intro z
      simp [Signal.half]
  have hob : ∀ l ∈ oaNet S G C, Obeys law sol l := by
    intro l hl
    have hcur : sol.i l.inst = current (potential x u s) l := currents_eq hnd _ hl
    have hl' := hl
    unfold oaNet resNet at hl'
    simp only [List.mem_append, List.mem_flatMap, List.mem_map, List.mem_range,
      List.mem_singleton] at hl'
    have hres : ∀ (N J : ℕ) (F : ℕ → ℕ → ℝ) (kd : Kind),
        (∃ n < N, ∃ j < J, l ∈ (if F n j ≠ 0 then
          [(⟨"Rp_" ++ fmt2 kd.pre n j, .res (1 / (1 * C * |F n j|)),
              [fmt kd.src j "_P", fmt "VGND_" n (if F n j < 0 then "_P" else "_N")]⟩ : Line ℝ),
           ⟨"Rn_" ++ fmt2 kd.pre n j, .res (1 / (1 * C * |F n j|)),
              [fmt kd.src j "_N", fmt "VGND_" n (if F n j < 0 then "_N" else "_P")]⟩]
          else [])) → Obeys law sol l := by
      rintro N J F kd ⟨n, _, j, _, h⟩
      by_cases h0 : F n j ≠ 0
      · rw [if_pos h0] at h
        simp only [List.mem_cons, List.not_mem_nil, or_false] at h
        rcases h with rfl | rfl <;>
        · intro t
          rw [hcur]
          exact ⟨rfl, rfl⟩
      · rw [if_neg h0] at h
        cases h
    rcases hl' with (((((rfl | h) | h) | h) | ⟨n, hn, rfl⟩) | ⟨n, hn, rfl⟩) | ⟨n, hn, rfl⟩
    · intro h
      exact absurd h (by decide)
    · exact hres _ _ _ _ h
    · exact hres _ _ _ _ h
    · exact hres _ _ _ _ h
    · intro _
      have e1 : potential x u s (fmt "VGND_" n "_P") = 0 := hV n true
      have e2 : potential x u s (fmt "VGND_" n "_N") = 0 := hV n false
      refine ⟨?_, ?_, ?_⟩
      · change potential x u s (fmt "VGND_" n "_P") = potential x u s (fmt "VGND_" n "_N")
        rw [e1, e2]
      · rw [hcur]; rfl
      · rw [hcur]; rfl
    · intro t
      have h := hxh n hn true t
      refine ⟨_, h, ?_, ?_⟩
      · rw [hcur, ← h.deriv]; rfl
      · rw [hcur]; rfl
    · intro t
      have h := hxh n hn false t
      refine ⟨_, h, ?_, ?_⟩
      · rw [hcur, ← h.deriv]; rfl
      · rw [hcur]; rfl
  have hk : ∀ n < S.N, ∀ p, Kirchhoff sol (oaNet S G C) (fmt "VGND_" n (sfx p)) := by
    intro n hn p t
    obtain ⟨d, hd, e⟩ := oaNet_leaving law sol S G C (fun v i h => (hop v i h).2) hob n hn p t
    have hd' := hd.unique (hxh n hn p t)
    rw [e, hd']
    change ∑ j ∈ Finset.range S.L, C * |S.B n j| * (potential x u s (fmt "VGND_" n (sfx p)) t
          - potential x u s (fmt "IN" j (sfx (if S.B n j < 0 then p else !p))) t)
        + ∑ j ∈ Finset.range S.N, C * |S.A n j| * (potential x u s (fmt "VGND_" n (sfx p)) t
          - potential x u s (fmt "X" j (sfx (if S.A n j < 0 then p else !p))) t)
        + ∑ j ∈ Finset.range S.M, C * |G n j| * (potential x u s (fmt "VGND_" n (sfx p)) t
          - potential x u s (fmt "OUT" j (sfx (if G n j < 0 then p else !p))) t) + _ = 0
    simp only [hV, hX, hU, hS, Signal.half, Pi.zero_apply]
    rw [group_half, group_half, group_half]
    ring
  refine ⟨sol, rfl, ?_, hob, fun n hn => ⟨hk n hn true, hk n hn false⟩⟩
  funext k t
  have h : currents (oaNet S G C) (potential x u s) "Xdc" = _ :=
    currents_eq hnd _ (l := ⟨"Xdc", .sub "digital_control", (controlPins S.N S.L S.M).map OaPart.ctl.hubPin⟩) (by
      unfold oaNet
      simp only [List.mem_append, List.mem_singleton]
      tauto)
  show currents (oaNet S G C) (potential x u s) "Xdc" k t = 0
  rw [h]
  rfl

/-- **C52**, converse: every solution of the state equation is a behaviour of the circuit. -/
theorem C52_realisable (ids : String → ℕ → String) (S : Analog.Sys ℝ) (C : ℝ)
    (G : ℕ → ℕ → ℝ) (hG : S.Gamma = some G) (x u s : ℕ → ℝ → ℝ)
    (hx : StateEquation S.N S.L S.M S.A S.B G x u s) :
    ∃ c, opampFrontend ids S C = .ok c ∧ ∃ (law : Law) (sol : Sol),
      (∀ v i, law "opamp" v i → IdealOpamp v i) ∧
      (∀ l ∈ c.netlist (Obj.name ids), Obeys law sol l) ∧
      (∀ n < S.N, Kirchhoff sol (c.netlist (Obj.name ids)) (fmt "VGND_" n "_P") ∧
        Kirchhoff sol (c.netlist (Obj.name ids)) (fmt "VGND_" n "_N")) ∧
      (∀ n, diff sol (fmt "X" n "_P") (fmt "X" n "_N") = x n) ∧
      (∀ l, diff sol (fmt "IN" l "_P") (fmt "IN" l "_N") = u l) ∧
      ∀ m, diff sol (fmt "OUT" m "_P") (fmt "OUT" m "_N") = s m := by
  obtain ⟨c, hc, sol, hv, -, hob, hk⟩ := opamp_realise ids S C G hG x u s hx
  have hX : ∀ n p, potential x u s (fmt "X" n (sfx p)) = (Signal.x p n).half x u s :=
    fun n p => potential_signal x u s (.x p n)
  have hU : ∀ n p, potential x u s (fmt "IN" n (sfx p)) = (Signal.u p n).half x u s :=
    fun n p => potential_signal x u s (.u p n)
  have hS : ∀ n p, potential x u s (fmt "OUT" n (sfx p)) = (Signal.s p n).half x u s :=
    fun n p => potential_signal x u s (.s p n)
  refine ⟨c, hc, _, sol, fun v i h => h rfl, hob, hk, ?_, ?_, ?_⟩
  · intro n
    funext t
    unfold diff
    rw [hv]
    change potential x u s (fmt "X" n (sfx true)) t - potential x u s (fmt "X" n (sfx false)) t = _
    rw [hX, hX]
    simp [Signal.half]
  · intro n
    funext t
    unfold diff
    rw [hv]
    change potential x u s (fmt "IN" n (sfx true)) t - potential x u s (fmt "IN" n (sfx false)) t = _
    rw [hU, hU]
    simp [Signal.half]
  · intro n
    funext t
    unfold diff
    rw [hv]
    change potential x u s (fmt "OUT" n (sfx true)) t - potential x u s (fmt "OUT" n (sfx false)) t = _
    rw [hS, hS]
    simp [Signal.half]

/-- A single integrator. -/
def oneIntegrator : Analog.Sys ℝ where
  N := 1
  L := 1
  M := 1
  Mt := 1
  Nt := 1
  A := fun _ _ => 0
  B := fun _ _ => 2
  CT := fun _ _ => 1
  Gamma := some fun _ _ => -2
  GammaT := some fun _ _ => 1
  D := fun _ _ => 0
  Bt := fun _ _ => 0
  At := fun _ _ => 0

/-- The hypotheses of `C52_state_equation` are met by the circuit of an integrator whose state rises with
slope one half (input one, control three quarters). -/
example : ∃ c, opampFrontend (fun e k => fmt e k "") oneIntegrator 1 = .ok c ∧
    ∃ (law : Law) (sol : Sol), (∀ v i, law "opamp" v i → IdealOpamp v i) ∧
      (∀ l ∈ c.netlist (Obj.name fun e k => fmt e k ""), Obeys law sol l) ∧
      (∀ n < 1, Kirchhoff sol (c.netlist (Obj.name fun e k => fmt e k "")) (fmt "VGND_" n "_P") ∧
        Kirchhoff sol (c.netlist (Obj.name fun e k => fmt e k "")) (fmt "VGND_" n "_N")) ∧
      diff sol (fmt "X" 0 "_P") (fmt "X" 0 "_N") = fun t => t / 2 := by
  obtain ⟨c, hc, law, sol, h1, h2, h3, h4, _⟩ := C52_realisable (fun e k => fmt e k "")
    oneIntegrator 1 (fun _ _ => -2) rfl (fun _ t => t / 2) (fun _ _ => 1) (fun _ _ => 3 / 4) (by
      intro n _ t
      refine ((hasDerivAt_id t).div_const 2).congr_deriv ?_
      simp [oneIntegrator]
      norm_num)
  exact ⟨c, hc, law, sol, h1, h2, h3, h4 0⟩

end Cbadc.Circuit
