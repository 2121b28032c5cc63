import Verif.Props.OpAmp
import Mathlib.Analysis.SpecialFunctions.Trigonometric.Basic
import Mathlib.Analysis.SpecialFunctions.Trigonometric.Deriv

/-!
# C92: the op-amp macro model, and the op-amp frontend as it is generated
-/

namespace Cbadc.Circuit

open Spec

/-- The body of the definition of the op-amp. -/
def macroNet (gm r C : ℝ) : List (Line ℝ) :=
  [⟨"Gota", .vccs gm, ["X", "VCM", "IN_P", "IN_N"]⟩,
   ⟨"Ebuf_p", .vcvs 1, ["OUT_P", "VCM", "X", "VCM"]⟩,
   ⟨"Ebuf_n", .vcvs 1, ["OUT_N", "VCM", "VCM", "X"]⟩,
   ⟨"Rx", .res r, ["X", "VCM"]⟩,
   ⟨"Cx", .cap C, ["X", "VCM"]⟩]

/-- The connections of the op-amp. -/
def macroConns : List (Obj × Obj) :=
  [(.own "VDD", .pin "Gota" "VDD"), (.own "VSS", .pin "Gota" "VSS"),
   (.own "VDD", .pin "Ebuf_p" "VDD"), (.own "VSS", .pin "Ebuf_p" "VSS"),
   (.own "VDD", .pin "Ebuf_n" "VDD"), (.own "VSS", .pin "Ebuf_n" "VSS"),
   (.own "IN_P", .pin "Gota" "IN_P"), (.own "IN_N", .pin "Gota" "IN_N"),
   (.own "OUT_P", .pin "Ebuf_p" "OUT_P"), (.own "VCM", .pin "Ebuf_p" "OUT_N"),
   (.own "OUT_N", .pin "Ebuf_n" "OUT_P"), (.own "VCM", .pin "Ebuf_n" "OUT_N"),
   (.own "X", .pin "Ebuf_p" "IN_P"), (.own "X", .pin "Ebuf_n" "IN_N"),
   (.own "X", .pin "Gota" "OUT_P"),
   (.own "VCM", .pin "Ebuf_p" "IN_N"), (.own "VCM", .pin "Ebuf_n" "IN_P"),
   (.own "VCM", .pin "Gota" "OUT_N"),
   (.own "X", .num "Rx" 0), (.own "X", .num "Cx" 0),
   (.own "VCM", .num "Rx" 1), (.own "VCM", .num "Cx" 1)]

theorem macro_star : Star macroConns := by
  constructor
  · unfold macroConns; decide
  · unfold macroConns; decide

theorem macro_lines (ids : String → ℕ → String) (W : Wires Obj) (w g A C : ℝ)
    (node : ∀ c ∈ macroConns, W.node (Obj.name ids) c.1 = c.1.name ids ∧
      W.node (Obj.name ids) c.2 = c.1.name ids) :
    (opampPins.map fun p => W.node (Obj.name ids) (.own p)) = opampPins ∧
    (parts (opampMacroOps w g A C)).map (Part.line (Obj.name ids) W) =
      macroNet (w * g * C) (A / (w * g * C)) C := by
  unfold macroConns at node
  simp only [List.forall_mem_cons, Obj.name, List.not_mem_nil, false_imp_iff, implies_true,
    and_true] at node
  obtain ⟨⟨n1, n2⟩, ⟨n3, n4⟩, ⟨-, n6⟩, ⟨-, n8⟩, ⟨-, n10⟩, ⟨-, n12⟩, ⟨n13, n14⟩, ⟨n15, n16⟩, ⟨n17, n18⟩,
    ⟨n19, n20⟩, ⟨n21, n22⟩, ⟨-, n24⟩, ⟨-, n26⟩, ⟨-, n28⟩, ⟨-, n30⟩, ⟨-, n32⟩, ⟨-, n34⟩, ⟨-, n36⟩,
    ⟨-, n38⟩, ⟨-, n40⟩, ⟨-, n42⟩, ⟨-, n44⟩⟩ := node
  constructor
  · simp only [opampPins, List.map_cons, List.map_nil, n1, n3, n13, n15, n17, n19, n21]
  · simp only [parts, opampMacroOps, Part.line, nodeOrder, otaPins, twoPin, macroNet, List.map_cons,
      List.map_nil, n2, n4, n6, n8, n10, n12, n14, n16, n18, n20, n22, n24, n26, n28, n30, n32, n34,
      n36, n38, n40, n42, n44]

theorem macro_def (ids : String → ℕ → String) (w g A C : ℝ) (h : w * g * C ≠ 0) :
    opampMacro ids w g A C = .ok ⟨opampPins, macroNet (w * g * C) (A / (w * g * C)) C⟩ := by
  have hc : conns (opampMacroOps w g A C) = macroConns := by
    unfold opampMacroOps macroConns
    dsimp only
    simp only [conns]
  have hp : (parts (opampMacroOps w g A C)).map Part.inst = ["Gota", "Ebuf_p", "Ebuf_n", "Rx", "Cx"] := by
    unfold opampMacroOps
    dsimp only
    simp only [parts, List.map_cons, List.map_nil]
  have hnd : ((Sub.empty.parts ++ parts (opampMacroOps w g A C)).map Part.inst).Nodup := by
    rw [show (Sub.empty : Sub Obj ℝ).parts = [] from rfl, List.nil_append, hp]
    decide
  have hne : ∀ c ∈ macroConns, c.1.name ids ≠ "" := by
    intro c hcm
    fin_cases hcm <;> simp [Obj.name]
  obtain ⟨h1, h2⟩ := macro_lines ids _ w g A C (star_node (Obj.name ids) macroConns macro_star hne)
  unfold opampMacro
  rw [if_neg h, run_eq (Obj.name ids) (opampMacroOps w g A C) .empty hnd, hc]
  dsimp only
  unfold Sub.definition Sub.netlist
  rw [show (Sub.empty : Sub Obj ℝ).parts = [] from rfl, List.nil_append,
    show (Sub.empty : Sub Obj ℝ).wires = .empty from rfl]
  dsimp only
  rw [h1, h2]

theorem macro_leaving (sol : Sol) (gm r C : ℝ) (t : ℝ) :
    leaving sol (macroNet gm r C) "VDD" t = 0 ∧ leaving sol (macroNet gm r C) "VSS" t = 0 ∧
    leaving sol (macroNet gm r C) "VCM" t = sol.i "Gota" 1 t + (sol.i "Ebuf_p" 1 t
      + sol.i "Ebuf_p" 3 t) + (sol.i "Ebuf_n" 1 t + sol.i "Ebuf_n" 2 t) + sol.i "Rx" 1 t
      + sol.i "Cx" 1 t ∧
    leaving sol (macroNet gm r C) "IN_P" t = sol.i "Gota" 2 t ∧
    leaving sol (macroNet gm r C) "IN_N" t = sol.i "Gota" 3 t ∧
    leaving sol (macroNet gm r C) "OUT_P" t = sol.i "Ebuf_p" 0 t ∧
    leaving sol (macroNet gm r C) "OUT_N" t = sol.i "Ebuf_n" 0 t ∧
    leaving sol (macroNet gm r C) "X" t = sol.i "Gota" 0 t + sol.i "Ebuf_p" 2 t
      + sol.i "Ebuf_n" 3 t + sol.i "Rx" 0 t + sol.i "Cx" 0 t := by
  unfold macroNet
  simp only [leaving_cons, leaving_nil, inflow_four, inflow_two]
  refine ⟨?_, ?_, ?_, ?_, ?_, ?_, ?_, ?_⟩ <;> simp <;> ring

theorem macro_onePole (law : Law) (w g A C : ℝ) (hC : C ≠ 0) (hw : w * g ≠ 0) (hA : A ≠ 0)
    (v i : ℕ → ℝ → ℝ) :
    ObeysDef law ⟨opampPins, macroNet (w * g * C) (A / (w * g * C)) C⟩ v i ↔
      OnePole (w * g) A v i := by
  constructor
  · rintro ⟨sol, ho, hp, hk⟩
    have P : ∀ k (h : k < 7), sol.v opampPins[k] = v k ∧
        i k = leaving sol (macroNet (w * g * C) (A / (w * g * C)) C) opampPins[k] := hp
    have p0 := P 0 (by decide)
    have p1 := P 1 (by decide)
    have p2 := P 2 (by decide)
    have p3 := P 3 (by decide)
    have p4 := P 4 (by decide)
    have p5 := P 5 (by decide)
    have p6 := P 6 (by decide)
    simp only [opampPins, List.getElem_cons_zero, List.getElem_cons_succ] at p0 p1 p2 p3 p4 p5 p6
    have hX := hk "X" (show "X" ∉ opampPins by decide)
    simp only [macroNet, List.forall_mem_cons, List.not_mem_nil, false_imp_iff, implies_true,
      and_true] at ho
    obtain ⟨oG, oP, oN, oR, oC⟩ := ho
    refine ⟨?_, fun t => sol.v "X" t - sol.v "VCM" t, ?_, ?_⟩
    · intro t
      obtain ⟨l0, l1, l2, l3, l4, l5, l6, lX⟩ := macro_leaving sol (w * g * C) (A / (w * g * C)) C t
      obtain ⟨g0, g1, g2, g3⟩ := oG t
      obtain ⟨a0, a1, a2, a3⟩ := oP t
      obtain ⟨b0, b1, b2, b3⟩ := oN t
      obtain ⟨r0, r1⟩ := oR t
      obtain ⟨d, c0, c1, c2⟩ := oC t
      have hX := hX t
      dsimp only at hX g0 g1 g2 g3 a0 a1 a2 a3 b0 b1 b2 b3 r0 r1 c1 c2
      rw [lX] at hX
      rw [p0.2, p1.2, p2.2, p3.2, p4.2, p5.2, p6.2, l0, l1, l2, l3, l4, l5, l6]
      refine ⟨rfl, rfl, g2, g3, ?_⟩
      rw [g1, a1, a3, b1, b2, r1, c2]
      linear_combination -hX + a2 + b3
    · intro t
      obtain ⟨a0, _⟩ := oP t
      obtain ⟨b0, _⟩ := oN t
      rw [← p5.1, ← p6.1, ← p2.1]
      constructor
      · linear_combination a0
      · linear_combination b0
    · intro t
      obtain ⟨_, _, _, _, _, _, _, lX⟩ := macro_leaving sol (w * g * C) (A / (w * g * C)) C t
      obtain ⟨g0, g1, g2, g3⟩ := oG t
      obtain ⟨a0, a1, a2, a3⟩ := oP t
      obtain ⟨b0, b1, b2, b3⟩ := oN t
      obtain ⟨r0, r1⟩ := oR t
      obtain ⟨d, c0, c1, c2⟩ := oC t
      have hX := hX t
      dsimp only at hX g0 g1 g2 g3 a0 a1 a2 a3 b0 b1 b2 b3 r0 r1 c1 c2
      rw [lX, g0, a2, b3, r0, c1, p3.1, p4.1] at hX
      refine c0.congr_deriv ?_
      apply mul_left_cancel₀ hC
      have e : (sol.v "X" t - sol.v "VCM" t) / (A / (w * g * C)) =
          w * g * C * ((sol.v "X" t - sol.v "VCM" t) / A) := by
        field_simp
      rw [e] at hX
      dsimp only
      linear_combination hX
  · rintro ⟨hi, y, hy, hd⟩
    let V : String → ℝ → ℝ := fun a => if a = "VDD" then v 0 else if a = "VSS" then v 1
      else if a = "VCM" then v 2 else if a = "IN_P" then v 3 else if a = "IN_N" then v 4
      else if a = "OUT_P" then v 5 else if a = "OUT_N" then v 6 else if a = "X" then v 2 + y else 0
    let gm := w * g * C
    let I : String → ℕ → ℝ → ℝ := fun e k t =>
      if e = "Gota" then (if k = 0 then gm * (v 3 t - v 4 t) else if k = 1 then
        - (gm * (v 3 t - v 4 t)) else 0)
      else if e = "Ebuf_p" then (if k = 0 then i 5 t else if k = 1 then - i 5 t else 0)
      else if e = "Ebuf_n" then (if k = 0 then i 6 t else if k = 1 then - i 6 t else 0)
      else if e = "Rx" then (if k = 0 then y t / (A / gm) else - (y t / (A / gm)))
      else if k = 0 then C * (- (w * g) * ((v 3 t - v 4 t) + y t / A))
      else - (C * (- (w * g) * ((v 3 t - v 4 t) + y t / A)))
    have e : ∀ t, y t / (A / gm) = gm * (y t / A) := by
      intro t
      have : gm ≠ 0 := mul_ne_zero hw hC
      field_simp
    refine ⟨⟨V, I⟩, ?_, ?_, ?_⟩
    · simp only [macroNet, List.forall_mem_cons, List.not_mem_nil, false_imp_iff, implies_true,
        and_true]
      refine ⟨?_, ?_, ?_, ?_, ?_⟩
      · intro t
        simp [V, I, gm]
      · intro t
        simp [V, I, hy t]
      · intro t
        simp [V, I, hy t]
      · intro t
        simp [V, I, gm]
      · intro t
        refine ⟨- (w * g) * ((v 3 t - v 4 t) + y t / A), ?_, ?_, ?_⟩
        · refine (hd t).congr_of_eventuallyEq (Filter.Eventually.of_forall ?_)
          intro z
          simp [V]
        · simp [I]
        · simp [I]
    · intro k h
      have h7 : k < 7 := h
      have L := macro_leaving ⟨V, I⟩ (w * g * C) (A / (w * g * C)) C
      have : k = 0 ∨ k = 1 ∨ k = 2 ∨ k = 3 ∨ k = 4 ∨ k = 5 ∨ k = 6 := by omega
      rcases this with rfl | rfl | rfl | rfl | rfl | rfl | rfl
      · refine ⟨by simp [V, opampPins], ?_⟩
        funext t
        exact (hi t).1.trans (L t).1.symm
      · refine ⟨by simp [V, opampPins], ?_⟩
        funext t
        exact (hi t).2.1.trans (L t).2.1.symm
      · refine ⟨by simp [V, opampPins], ?_⟩
        funext t
        refine (hi t).2.2.2.2.trans (Eq.trans ?_ (L t).2.2.1.symm)
        simp only [I]
        simp
        rw [e]
        simp only [gm]
        ring
      · refine ⟨by simp [V, opampPins], ?_⟩
        funext t
        refine (hi t).2.2.1.trans (Eq.trans ?_ (L t).2.2.2.1.symm)
        simp [I]
      · refine ⟨by simp [V, opampPins], ?_⟩
        funext t
        refine (hi t).2.2.2.1.trans (Eq.trans ?_ (L t).2.2.2.2.1.symm)
        simp [I]
      · refine ⟨by simp [V, opampPins], ?_⟩
        funext t
        refine Eq.trans ?_ (L t).2.2.2.2.2.1.symm
        simp [I]
      · refine ⟨by simp [V, opampPins], ?_⟩
        funext t
        refine Eq.trans ?_ (L t).2.2.2.2.2.2.1.symm
        simp [I]
    · intro a ha t
      have L := macro_leaving ⟨V, I⟩ (w * g * C) (A / (w * g * C)) C
      by_cases hX : a = "X"
      · rw [hX]
        refine (L t).2.2.2.2.2.2.2.trans ?_
        simp only [I]
        simp
        rw [e]
        simp only [gm]
        ring
      · unfold leaving
        apply List.sum_eq_zero
        intro z hz
        obtain ⟨l, hl, rfl⟩ := List.mem_map.mp hz
        apply inflow_notMem
        intro hm
        simp only [opampPins, List.mem_cons, List.not_mem_nil, or_false, not_or] at ha
        simp only [macroNet, List.mem_cons, List.not_mem_nil, or_false] at hl
        rcases hl with rfl | rfl | rfl | rfl | rfl <;>
          simp only [List.mem_cons, List.not_mem_nil, or_false] at hm <;> tauto

/-- **C92**.  The op-amp that the constructor describes behaves exactly like a one-pole op-amp whose
single-ended gain is `DC_gain` and whose pole is at `GBWP / DC_gain`. -/
theorem C92_one_pole (ids : String → ℕ → String) (g A C : ℝ) :
    (g * C = 0 → opampMacro ids (2 * Real.pi) g A C = .error .zeroDivision) ∧
    (g * C ≠ 0 → ∃ D, opampMacro ids (2 * Real.pi) g A C = .ok D ∧ (A ≠ 0 → ∀ (law : Law) v i,
      ObeysDef law D v i ↔ OnePole (2 * Real.pi * g) A v i)) := by
  constructor
  · intro h
    unfold opampMacro
    rw [if_pos (by rw [mul_assoc, h, mul_zero])]
  · intro h
    have hpi : 2 * Real.pi ≠ 0 := mul_ne_zero two_ne_zero Real.pi_ne_zero
    have hg : g ≠ 0 := left_ne_zero_of_mul h
    have hC : C ≠ 0 := right_ne_zero_of_mul h
    refine ⟨_, macro_def ids (2 * Real.pi) g A C (mul_ne_zero (mul_ne_zero hpi hg) hC), ?_⟩
    intro hA law v i
    exact macro_onePole law (2 * Real.pi) g A C hC (mul_ne_zero hpi hg) hA v i

/-- **C92**, static gain: at rest each output is at `DC_gain` times the input voltage (inverted), hence
the differential output at twice that. -/
theorem C92_static (w A : ℝ) (hw : w ≠ 0) (hA : A ≠ 0) (v i : ℕ → ℝ → ℝ) (h : OnePole w A v i)
    (c : ℕ → ℝ) (hc : ∀ k t, v k t = c k) :
    c 5 - c 2 = - (A * (c 3 - c 4)) ∧ c 6 - c 2 = A * (c 3 - c 4) ∧
      c 5 - c 6 = - (2 * A * (c 3 - c 4)) := by
  obtain ⟨_, y, hy, hd⟩ := h
  have e : y = fun _ => c 5 - c 2 := by
    funext t
    have := (hy t).1
    rw [hc, hc] at this
    linear_combination -this
  have h6 := (hy 0).2
  have h0 := hd 0
  rw [e] at h0 h6
  have hz := h0.unique (hasDerivAt_const (0 : ℝ) (c 5 - c 2))
  rw [hc, hc] at hz
  rw [hc, hc] at h6
  have hz' : c 3 - c 4 + (c 5 - c 2) / A = 0 := by
    rcases mul_eq_zero.mp hz with h | h
    · exact absurd (neg_eq_zero.mp h) hw
    · exact h
  have h5 : c 5 - c 2 = - (A * (c 3 - c 4)) := by
    field_simp at hz'
    linear_combination hz'
  refine ⟨h5, ?_, ?_⟩
  · linear_combination h6 - h5
  · linear_combination -h6 + 2 * h5

/-- **C92**, the differential gain is not the requested one: asked for a gain of 1000, the op-amp has
an equilibrium with one millivolt at its input and two volts at its output. -/
theorem C92_differential_gain_false : ∃ D,
    opampMacro (fun e k => fmt e k "") (2 * Real.pi) 1 1000 1 = .ok D ∧
    ∀ law : Law, ∃ v i, ObeysDef law D v i ∧ (∀ t, v 3 t - v 4 t = 1 / 1000) ∧
      ∀ t, v 5 t - v 6 t = -2 := by
  obtain ⟨D, hD, h⟩ := (C92_one_pole (fun e k => fmt e k "") 1 1000 1).2 (by norm_num)
  refine ⟨D, hD, ?_⟩
  intro law
  refine ⟨fun k _ => if k = 3 then 1 / 1000 else if k = 5 then -1 else if k = 6 then 1 else 0,
    fun _ _ => 0, (h (by norm_num) law _ _).mpr ⟨fun t => by simp, fun _ => -1, ?_, ?_⟩, ?_, ?_⟩
  · intro t
    simp
  · intro t
    refine (hasDerivAt_const t (-1 : ℝ)).congr_deriv ?_
    norm_num
  · intro t
    simp
  · intro t
    norm_num

/-- **C92**, sinusoids: for an input of amplitude one and angular frequency `f` there is a behaviour of
the op-amp whose single-ended output is a sinusoid with squared amplitude
`w ^ 2 / (f ^ 2 + (w / A) ^ 2)`; at `f = w` this is `A ^ 2 / (A ^ 2 + 1)`, so `GBWP` is the unity gain
frequency up to the finite gain. -/
theorem C92_sinusoid (w A f : ℝ) (hw : w ≠ 0) (hA : A ≠ 0) : ∃ a b : ℝ,
    a ^ 2 + b ^ 2 = w ^ 2 / (f ^ 2 + (w / A) ^ 2) ∧ (f = w → a ^ 2 + b ^ 2 = A ^ 2 / (A ^ 2 + 1)) ∧
    ∃ v i, OnePole w A v i ∧ (∀ t, v 3 t - v 4 t = Real.cos (f * t)) ∧
      ∀ t, v 5 t - v 2 t = a * Real.cos (f * t) + b * Real.sin (f * t) := by
  have hq : f ^ 2 + (w / A) ^ 2 ≠ 0 := by
    have : 0 < (w / A) ^ 2 := by positivity
    positivity
  refine ⟨- (w * (w / A)) / (f ^ 2 + (w / A) ^ 2), - (w * f) / (f ^ 2 + (w / A) ^ 2), ?_, ?_, ?_⟩
  · rw [div_pow (- (w * (w / A))), div_pow (- (w * f)), ← add_div,
      div_eq_div_iff (pow_ne_zero 2 hq) hq]
    ring
  · rintro rfl
    have h1 : A ^ 2 + 1 ≠ 0 := by positivity
    rw [div_pow (- (f * (f / A))), div_pow (- (f * f)), ← add_div,
      div_eq_div_iff (pow_ne_zero 2 hq) h1]
    field_simp
    ring
  · obtain ⟨q, hq'⟩ : ∃ q, q = f ^ 2 + (w / A) ^ 2 := ⟨_, rfl⟩
    rw [← hq'] at hq ⊢
    let y : ℝ → ℝ := fun t => - (w * (w / A)) / q * Real.cos (f * t) + - (w * f) / q * Real.sin (f * t)
    refine ⟨fun k t => if k = 3 then Real.cos (f * t) else if k = 5 then y t else if k = 6 then - y t
      else 0, fun _ _ => 0, ⟨fun t => by simp, y, ?_, ?_⟩, ?_, ?_⟩
    · intro t
      simp
    · intro t
      have h1 : HasDerivAt (fun t => f * t) f t := by
        simpa using (hasDerivAt_id t).const_mul f
      have hc := (h1.cos.const_mul (- (w * (w / A)) / q))
      have hs := (h1.sin.const_mul (- (w * f) / q))
      refine (hc.add hs).congr_deriv ?_
      have key : w * f ^ 2 = w * q - w * (w / A) ^ 2 := by rw [hq']; ring
      simp only [y]
      simp
      field_simp
      have key' : f ^ 2 * A ^ 2 = q * A ^ 2 - w ^ 2 := by
        rw [hq']
        field_simp
        ring
      linear_combination -(Real.cos (f * t)) * key'
    · intro t
      simp
    · intro t
      simp [y]

/-! ### The frontend with these op-amps -/

/-- The sum of the magnitudes of the coefficients in a row of the state equation. -/
def rowNorm (S : Analog.Sys ℝ) (G : ℕ → ℕ → ℝ) (n : ℕ) : ℝ :=
  ∑ j ∈ Finset.range S.L, |S.B n j| + ∑ j ∈ Finset.range S.N, |S.A n j|
    + ∑ j ∈ Finset.range S.M, |G n j|

/-- The right hand side of the state equation. -/
def rowRhs (S : Analog.Sys ℝ) (G : ℕ → ℕ → ℝ) (n : ℕ) (x u s : ℕ → ℝ) : ℝ :=
  ∑ j ∈ Finset.range S.N, S.A n j * x j + ∑ l ∈ Finset.range S.L, S.B n l * u l
    + ∑ m ∈ Finset.range S.M, G n m * s m

theorem group_ground (J : ℕ) (F : ℕ → ℝ) (C a b : ℝ) (w : ℕ → Bool → ℝ) :
    ∑ j ∈ Finset.range J, C * |F j| * (a - w j (if F j < 0 then true else !true))
      - ∑ j ∈ Finset.range J, C * |F j| * (b - w j (if F j < 0 then false else !false)) =
    C * ((a - b) * ∑ j ∈ Finset.range J, |F j|
      + ∑ j ∈ Finset.range J, F j * (w j true - w j false)) := by
  rw [Finset.mul_sum, ← Finset.sum_sub_distrib, ← Finset.sum_add_distrib, Finset.mul_sum]
  apply Finset.sum_congr rfl
  intro j _
  by_cases h : F j < 0
  · rw [if_pos h, if_pos h, abs_of_neg h]
    ring
  · rw [if_neg h, if_neg h, abs_of_nonneg (not_lt.mp h)]
    simp only [Bool.not_true, Bool.not_false]
    ring

/-- The equations of the frontend with one-pole op-amps. -/
theorem opamp_nonideal (S : Analog.Sys ℝ) (G : ℕ → ℕ → ℝ) (C w A : ℝ) (hC : C ≠ 0)
    (law : Law) (sol : Sol) (hop : ∀ v i, law "opamp" v i → OnePole w A v i)
    (hob : ∀ l ∈ oaNet S G C, Obeys law sol l)
    (hk : ∀ n < S.N, Kirchhoff sol (oaNet S G C) (fmt "VGND_" n "_P") ∧
      Kirchhoff sol (oaNet S G C) (fmt "VGND_" n "_N")) (n : ℕ) (hn : n < S.N) (t : ℝ) :
    HasDerivAt (diff sol (fmt "X" n "_P") (fmt "X" n "_N"))
      (- w * (2 * diff sol (fmt "VGND_" n "_P") (fmt "VGND_" n "_N") t
        + diff sol (fmt "X" n "_P") (fmt "X" n "_N") t / A)) t ∧
    HasDerivAt (fun z => diff sol (fmt "X" n "_P") (fmt "X" n "_N") z
        - diff sol (fmt "VGND_" n "_P") (fmt "VGND_" n "_N") z)
      (rowRhs S G n (fun j => diff sol (fmt "X" j "_P") (fmt "X" j "_N") t)
        (fun l => diff sol (fmt "IN" l "_P") (fmt "IN" l "_N") t)
        (fun m => diff sol (fmt "OUT" m "_P") (fmt "OUT" m "_N") t)
        + rowNorm S G n * diff sol (fmt "VGND_" n "_P") (fmt "VGND_" n "_N") t) t := by
  have hin : ∀ v i, law "opamp" v i → i 3 = 0 ∧ i 4 = 0 := by
    intro v i h
    obtain ⟨h1, _⟩ := hop v i h
    exact ⟨funext fun t => (h1 t).2.2.1, funext fun t => (h1 t).2.2.2.1⟩
  constructor
  · have hl := hob ⟨fmt "Xop_" n "", .sub "opamp",
      ["VDD", "VSS", "VCM", fmt "VGND_" n "_P", fmt "VGND_" n "_N", fmt "X" n "_P", fmt "X" n "_N"]⟩
      (by
        unfold oaNet
        simp only [List.mem_append]
        exact Or.inl (Or.inl (Or.inr (List.mem_map.mpr ⟨n, List.mem_range.mpr hn, rfl⟩))))
    obtain ⟨_, y, hy, hd⟩ := hop _ _ hl
    have hy' : ∀ t, sol.v (fmt "X" n "_P") t = sol.v "VCM" t + y t ∧
        sol.v (fmt "X" n "_N") t = sol.v "VCM" t - y t := hy
    have hd' : HasDerivAt y (- w * ((sol.v (fmt "VGND_" n "_P") t - sol.v (fmt "VGND_" n "_N") t)
        + y t / A)) t := hd t
    refine ((hd'.const_mul 2).congr_deriv ?_).congr_of_eventuallyEq (Filter.Eventually.of_forall ?_)
    · simp only [diff, (hy' t).1, (hy' t).2]
      ring
    · intro z
      simp only [diff, (hy' z).1, (hy' z).2]
      ring
  · obtain ⟨dp, hdp, ep⟩ := oaNet_leaving law sol S G C hin hob n hn true t
    obtain ⟨dn, hdn, en⟩ := oaNet_leaving law sol S G C hin hob n hn false t
    have kp : leaving sol (oaNet S G C) (fmt "VGND_" n (sfx true)) t = 0 := (hk n hn).1 t
    have kn : leaving sol (oaNet S G C) (fmt "VGND_" n (sfx false)) t = 0 := (hk n hn).2 t
    rw [ep] at kp
    rw [en] at kn
    have g1 := group_ground S.L (S.B n) C (sol.v (fmt "VGND_" n (sfx true)) t)
      (sol.v (fmt "VGND_" n (sfx false)) t) (fun j q => sol.v (fmt "IN" j (sfx q)) t)
    have g2 := group_ground S.N (S.A n) C (sol.v (fmt "VGND_" n (sfx true)) t)
      (sol.v (fmt "VGND_" n (sfx false)) t) (fun j q => sol.v (fmt "X" j (sfx q)) t)
    have g3 := group_ground S.M (G n) C (sol.v (fmt "VGND_" n (sfx true)) t)
      (sol.v (fmt "VGND_" n (sfx false)) t) (fun j q => sol.v (fmt "OUT" j (sfx q)) t)
    refine ((hdn.sub hdp).congr_deriv ?_).congr_of_eventuallyEq (Filter.Eventually.of_forall ?_)
    · unfold rowRhs rowNorm
      change dn - dp = ∑ j ∈ Finset.range S.N, S.A n j * (sol.v (fmt "X" j (sfx true)) t
          - sol.v (fmt "X" j (sfx false)) t)
        + ∑ j ∈ Finset.range S.L, S.B n j * (sol.v (fmt "IN" j (sfx true)) t
          - sol.v (fmt "IN" j (sfx false)) t)
        + ∑ j ∈ Finset.range S.M, G n j * (sol.v (fmt "OUT" j (sfx true)) t
          - sol.v (fmt "OUT" j (sfx false)) t)
        + (∑ j ∈ Finset.range S.L, |S.B n j| + ∑ j ∈ Finset.range S.N, |S.A n j|
          + ∑ j ∈ Finset.range S.M, |G n j|) * (sol.v (fmt "VGND_" n (sfx true)) t
          - sol.v (fmt "VGND_" n (sfx false)) t)
      apply mul_left_cancel₀ hC
      linear_combination kn - kp + g1 + g2 + g3
    · intro z
      change sol.v (fmt "X" n (sfx true)) z - sol.v (fmt "X" n (sfx false)) z
        - (sol.v (fmt "VGND_" n (sfx true)) z - sol.v (fmt "VGND_" n (sfx false)) z) =
        (sol.v (fmt "VGND_" n (sfx false)) z - sol.v (fmt "X" n (sfx false)) z)
        - (sol.v (fmt "VGND_" n (sfx true)) z - sol.v (fmt "X" n (sfx true)) z)
      ring

/-- **C93**.  The op-amp frontend as it is generated, with the op-amps it defines instead of ideal
ones: the states follow the state equation up to an error that vanishes with growing `DC_gain` and
`GBWP`.  If the states are bounded by `X` and their slopes by `V`, then within
`r = (V / (2 pi GBWP) + X / DC_gain) / 2` of every state there is a function that satisfies its row of
the state equation up to `r` times the sum of the magnitudes of the coefficients in that row. -/
theorem C93_error (ids : String → ℕ → String) (S : Analog.Sys ℝ) (C g A Ca : ℝ) (hC : C ≠ 0)
    (hg : 0 < g) (hA : 0 < A) (hCa : Ca ≠ 0) :
    ∀ G, S.Gamma = some G → ∃ s D, opampFrontend ids S C = .ok s ∧
      opampMacro ids (2 * Real.pi) g A Ca = .ok D ∧
      ∀ (law : Law) (sol : Sol), (∀ v i, law "opamp" v i → ObeysDef law D v i) →
        (∀ l ∈ s.netlist (Obj.name ids), Obeys law sol l) →
        (∀ n < S.N, Kirchhoff sol (s.netlist (Obj.name ids)) (fmt "VGND_" n "_P") ∧
          Kirchhoff sol (s.netlist (Obj.name ids)) (fmt "VGND_" n "_N")) →
        ∀ n < S.N, ∀ X V : ℝ, (∀ t, |diff sol (fmt "X" n "_P") (fmt "X" n "_N") t| ≤ X) →
          (∀ t, |deriv (diff sol (fmt "X" n "_P") (fmt "X" n "_N")) t| ≤ V) →
          ∃ z : ℝ → ℝ,
            (∀ t, |diff sol (fmt "X" n "_P") (fmt "X" n "_N") t - z t|
              ≤ (V / (2 * Real.pi * g) + X / A) / 2) ∧
            ∀ t, ∃ d, HasDerivAt z d t ∧
              |d - (∑ j ∈ Finset.range S.N, S.A n j * diff sol (fmt "X" j "_P") (fmt "X" j "_N") t
                + ∑ l ∈ Finset.range S.L, S.B n l * diff sol (fmt "IN" l "_P") (fmt "IN" l "_N") t
                + ∑ m ∈ Finset.range S.M, G n m * diff sol (fmt "OUT" m "_P") (fmt "OUT" m "_N") t)|
              ≤ (∑ j ∈ Finset.range S.L, |S.B n j| + ∑ j ∈ Finset.range S.N, |S.A n j|
                + ∑ j ∈ Finset.range S.M, |G n j|) * ((V / (2 * Real.pi * g) + X / A) / 2) := by
  intro G hG
  have hpi : 0 < 2 * Real.pi := by positivity
  have hw : 0 < 2 * Real.pi * g := by positivity
  obtain ⟨s, hs, hnet, _⟩ := opamp_netlist ids S G hG C
  obtain ⟨D, hD, hiff⟩ := (C92_one_pole ids g A Ca).2 (mul_ne_zero hg.ne' hCa)
  refine ⟨s, D, hs, hD, ?_⟩
  rw [hnet]
  intro law sol hop hob hk n hn X V hX hV
  have key := opamp_nonideal S G C (2 * Real.pi * g) A hC law sol
    (fun v i h => (hiff hA.ne' law v i).mp (hop v i h)) hob hk n hn
  have he : ∀ t, |diff sol (fmt "VGND_" n "_P") (fmt "VGND_" n "_N") t|
      ≤ (V / (2 * Real.pi * g) + X / A) / 2 := by
    intro t
    have h1 := (key t).1.deriv
    obtain ⟨d, hd⟩ : ∃ d, d = deriv (diff sol (fmt "X" n "_P") (fmt "X" n "_N")) t := ⟨_, rfl⟩
    have hdV := hV t
    rw [← hd] at h1 hdV
    have e : diff sol (fmt "VGND_" n "_P") (fmt "VGND_" n "_N") t =
        - ((d / (2 * Real.pi * g) + diff sol (fmt "X" n "_P") (fmt "X" n "_N") t / A) / 2) := by
      have := hw.ne'
      rw [h1]
      field_simp
      ring
    rw [e, abs_neg, abs_div, abs_of_pos (two_pos : (0 : ℝ) < 2)]
    have a1 : |d / (2 * Real.pi * g)| ≤ V / (2 * Real.pi * g) := by
      rw [abs_div, abs_of_pos hw]
      exact div_le_div_of_nonneg_right hdV hw.le
    have a2 : |diff sol (fmt "X" n "_P") (fmt "X" n "_N") t / A| ≤ X / A := by
      rw [abs_div, abs_of_pos hA]
      exact div_le_div_of_nonneg_right (hX t) hA.le
    have a3 := abs_add_le (d / (2 * Real.pi * g)) (diff sol (fmt "X" n "_P") (fmt "X" n "_N") t / A)
    linarith
  refine ⟨fun z => diff sol (fmt "X" n "_P") (fmt "X" n "_N") z
        - diff sol (fmt "VGND_" n "_P") (fmt "VGND_" n "_N") z, ?_, ?_⟩
  · intro t
    dsimp only
    rw [sub_sub_cancel]
    exact he t
  · intro t
    refine ⟨_, (key t).2, ?_⟩
    have hnn : 0 ≤ rowNorm S G n := by
      unfold rowNorm
      have : ∀ (J : ℕ) (F : ℕ → ℝ), 0 ≤ ∑ j ∈ Finset.range J, |F j| :=
        fun J F => Finset.sum_nonneg fun j _ => abs_nonneg _
      have h1 := this S.L (S.B n)
      have h2 := this S.N (S.A n)
      have h3 := this S.M (G n)
      linarith
    have e : ∀ r m e : ℝ, r + m * e - r = m * e := fun _ _ _ => by ring
    change |rowRhs S G n _ _ _ + _ - rowRhs S G n _ _ _| ≤ rowNorm S G n * _
    rw [e, abs_mul, abs_of_nonneg hnn]
    exact mul_le_mul_of_nonneg_left (he t) hnn

/-! ### The converse -/

open Classical in
/-- Potentials of the virtual grounds for given voltages between them; all other nodes are at zero. -/
noncomputable def ground (e : ℕ → ℝ → ℝ) (a : String) : ℝ → ℝ :=
  if h : ∃ q : ℕ × Bool, fmt "VGND_" q.1 (sfx q.2) = a then
    fun t => if h.choose.2 then e h.choose.1 t / 2 else - (e h.choose.1 t / 2)
  else 0

theorem ground_node (e : ℕ → ℝ → ℝ) (n : ℕ) (p : Bool) :
    ground e (fmt "VGND_" n (sfx p)) = fun t => if p then e n t / 2 else - (e n t / 2) := by
  have h : ∃ q : ℕ × Bool, fmt "VGND_" q.1 (sfx q.2) = fmt "VGND_" n (sfx p) := ⟨(n, p), rfl⟩
  have inj : ∀ q : ℕ × Bool, fmt "VGND_" q.1 (sfx q.2) = fmt "VGND_" n (sfx p) → q = (n, p) := by
    rintro ⟨m, q⟩ e
    cases p <;> cases q <;> simp only [sfx] at e <;> names at e <;> simp [e]
  unfold ground
  rw [dif_pos h, inj _ h.choose_spec]

theorem ground_signal (e : ℕ → ℝ → ℝ) (q : Signal) : ground e q.name = 0 := by
  unfold ground
  rw [dif_neg]
  rintro ⟨⟨n, p⟩, hq⟩
  rcases q with ⟨q, m⟩ | ⟨q, m⟩ | ⟨q, m⟩ <;> cases p <;> cases q <;>
    simp only [Signal.name, sfx] at hq <;> names at hq

theorem ground_vcm (e : ℕ → ℝ → ℝ) : ground e "VCM" = 0 := by
  unfold ground
  rw [dif_neg]
  rintro ⟨⟨n, p⟩, hq⟩
  cases p <;> simp only [sfx] at hq <;> names at hq

theorem signal_vcm (x u s : ℕ → ℝ → ℝ) : potential x u s "VCM" = 0 := by
  unfold potential
  rw [dif_neg]
  rintro ⟨q, hq⟩
  rcases q with ⟨q, m⟩ | ⟨q, m⟩ | ⟨q, m⟩ <;> cases q <;>
    simp only [Signal.name, sfx] at hq <;> names at hq

/-- **C93**, exactness: the equations behind the error bound are all there is.  All functions `x`, `e`
with `x' = -w (2 e + x / DC_gain)` and `(x - e)' = A x + B u + Gamma s + rho e` are states and virtual
ground voltages of a behaviour of the circuit. -/
theorem C93_realisable (ids : String → ℕ → String) (S : Analog.Sys ℝ) (C g A Ca : ℝ)
    (hg : 0 < g) (hA : 0 < A) (hCa : Ca ≠ 0) (G : ℕ → ℕ → ℝ) (hG : S.Gamma = some G)
    (x e u s : ℕ → ℝ → ℝ)
    (hx : ∀ n < S.N, ∀ t, HasDerivAt (x n) (- (2 * Real.pi * g) * (2 * e n t + x n t / A)) t)
    (hz : ∀ n < S.N, ∀ t, HasDerivAt (fun z => x n z - e n z)
      (∑ j ∈ Finset.range S.N, S.A n j * x j t + ∑ l ∈ Finset.range S.L, S.B n l * u l t
        + ∑ m ∈ Finset.range S.M, G n m * s m t
        + (∑ j ∈ Finset.range S.L, |S.B n j| + ∑ j ∈ Finset.range S.N, |S.A n j|
          + ∑ j ∈ Finset.range S.M, |G n j|) * e n t) t) :
    ∃ c D, opampFrontend ids S C = .ok c ∧ opampMacro ids (2 * Real.pi) g A Ca = .ok D ∧
      ∃ (law : Law) (sol : Sol), (∀ v i, law "opamp" v i → ObeysDef law D v i) ∧
      (∀ l ∈ c.netlist (Obj.name ids), Obeys law sol l) ∧
      (∀ n < S.N, Kirchhoff sol (c.netlist (Obj.name ids)) (fmt "VGND_" n "_P") ∧
        Kirchhoff sol (c.netlist (Obj.name ids)) (fmt "VGND_" n "_N")) ∧
      (∀ n, diff sol (fmt "X" n "_P") (fmt "X" n "_N") = x n) ∧
      (∀ n, diff sol (fmt "VGND_" n "_P") (fmt "VGND_" n "_N") = e n) ∧
      (∀ l, diff sol (fmt "IN" l "_P") (fmt "IN" l "_N") = u l) ∧
      ∀ m, diff sol (fmt "OUT" m "_P") (fmt "OUT" m "_N") = s m := by
  obtain ⟨c, hc, hnet, hnd⟩ := opamp_netlist ids S G hG C
  rw [← netlist_insts (Obj.name ids), hnet] at hnd
  obtain ⟨D, hD, hiff⟩ := (C92_one_pole ids g A Ca).2 (mul_ne_zero hg.ne' hCa)
  refine ⟨c, D, hc, hD, ?_⟩
  rw [hnet]
  let P : String → ℝ → ℝ := fun a => potential x u s a + ground e a
  let law : Law := fun name v i => name = "opamp" → OnePole (2 * Real.pi * g) A v i
  let sol : Sol := ⟨P, currents (oaNet S G C) P⟩
  have hop : ∀ v i, law "opamp" v i → ObeysDef law D v i := fun v i h =>
    (hiff hA.ne' law v i).mpr (h rfl)
  have hin : ∀ v i, law "opamp" v i → i 3 = 0 ∧ i 4 = 0 := by
    intro v i h
    obtain ⟨h1, _⟩ := h rfl
    exact ⟨funext fun t => (h1 t).2.2.1, funext fun t => (h1 t).2.2.2.1⟩
  have hX : ∀ n p, P (fmt "X" n (sfx p)) = (Signal.x p n).half x u s := by
    intro n p
    change potential x u s (Signal.x p n).name + ground e (Signal.x p n).name = _
    rw [ground_signal, potential_signal, add_zero]
  have hU : ∀ n p, P (fmt "IN" n (sfx p)) = (Signal.u p n).half x u s := by
    intro n p
    change potential x u s (Signal.u p n).name + ground e (Signal.u p n).name = _
    rw [ground_signal, potential_signal, add_zero]
  have hS : ∀ n p, P (fmt "OUT" n (sfx p)) = (Signal.s p n).half x u s := by
    intro n p
    change potential x u s (Signal.s p n).name + ground e (Signal.s p n).name = _
    rw [ground_signal, potential_signal, add_zero]
  have hV : ∀ n p, P (fmt "VGND_" n (sfx p)) = fun t => if p then e n t / 2 else - (e n t / 2) := by
    intro n p
    change potential x u s _ + ground e _ = _
    rw [potential_ground, ground_node, zero_add]
  have hM : P "VCM" = 0 := by
    change potential x u s _ + ground e _ = _
    rw [signal_vcm, ground_vcm, add_zero]
  have hxh : ∀ n < S.N, ∀ (p : Bool) t, HasDerivAt
      (fun z => P (fmt "VGND_" n (sfx p)) z - P (fmt "X" n (sfx p)) z)
      (- ((if p then 1 else -1) * ((∑ j ∈ Finset.range S.N, S.A n j * x j t
        + ∑ l ∈ Finset.range S.L, S.B n l * u l t + ∑ m ∈ Finset.range S.M, G n m * s m t
        + (∑ j ∈ Finset.range S.L, |S.B n j| + ∑ j ∈ Finset.range S.N, |S.A n j|
          + ∑ j ∈ Finset.range S.M, |G n j|) * e n t) / 2))) t := by
    intro n hn p t
    have h := ((hz n hn t).div_const 2)
    rw [hV, hX]
    cases p
    · refine (h.congr_deriv (by simp)).congr_of_eventuallyEq (Filter.Eventually.of_forall ?_)
      intro z
      simp [Signal.half]
      ring
    · refine (h.neg.congr_deriv (by simp)).congr_of_eventuallyEq (Filter.Eventually.of_forall ?_)
      intro z
      simp [Signal.half]
      ring
  have hob : ∀ l ∈ oaNet S G C, Obeys law sol l := by
    intro l hl
    have hcur : sol.i l.inst = current P l := currents_eq hnd _ hl
    have hl' := hl
    unfold oaNet resNet at hl'
    simp only [List.mem_append, List.mem_flatMap, List.mem_map, List.mem_range,
      List.mem_singleton] at hl'
    have hres : ∀ (N J : ℕ) (F : ℕ → ℕ → ℝ) (kd : Kind),
        (∃ n < N, ∃ j < J, l ∈ (if F n j ≠ 0 then
          [(⟨"Rp_" ++ fmt2 kd.pre n j, .res (1 / (1 * C * |F n j|)),
              [fmt kd.src j "_P", fmt "VGND_" n (if F n j < 0 then "_P" else "_N")]⟩ : Line ℝ),
           ⟨"Rn_" ++ fmt2 kd.pre n j, .res (1 / (1 * C * |F n j|)),
              [fmt kd.src j "_N", fmt "VGND_" n (if F n j < 0 then "_N" else "_P")]⟩]
          else [])) → Obeys law sol l := by
      rintro N J F kd ⟨n, _, j, _, h⟩
      by_cases h0 : F n j ≠ 0
      · rw [if_pos h0] at h
        simp only [List.mem_cons, List.not_mem_nil, or_false] at h
        rcases h with rfl | rfl <;>
        · intro t
          rw [hcur]
          exact ⟨rfl, rfl⟩
      · rw [if_neg h0] at h
        cases h
    rcases hl' with (((((rfl | h) | h) | h) | ⟨n, hn, rfl⟩) | ⟨n, hn, rfl⟩) | ⟨n, hn, rfl⟩
    · intro h
      exact absurd h (by decide)
    · exact hres _ _ _ _ h
    · exact hres _ _ _ _ h
    · exact hres _ _ _ _ h
    · intro _
      rw [hcur]
      refine ⟨fun t => ?_, fun t => x n t / 2, fun t => ?_, fun t => ?_⟩
      · simp [current]
      · change P (fmt "X" n (sfx true)) t = P "VCM" t + _ ∧ P (fmt "X" n (sfx false)) t = P "VCM" t - _
        rw [hX, hX, hM]
        simp [Signal.half]
      · change HasDerivAt _ (- (2 * Real.pi * g) * (P (fmt "VGND_" n (sfx true)) t
          - P (fmt "VGND_" n (sfx false)) t + _)) t
        rw [hV, hV]
        refine ((hx n hn t).div_const 2).congr_deriv ?_
        simp
        ring
    · intro t
      have h := hxh n hn true t
      refine ⟨_, h, ?_, ?_⟩
      · rw [hcur, ← h.deriv]; rfl
      · rw [hcur]; rfl
    · intro t
      have h := hxh n hn false t
      refine ⟨_, h, ?_, ?_⟩
      · rw [hcur, ← h.deriv]; rfl
      · rw [hcur]; rfl
  have split : ∀ (J : ℕ) (F : ℕ → ℝ) (a : ℝ) (p : Bool) (w : ℕ → ℝ),
      ∑ j ∈ Finset.range J, C * |F j| * (a - if (if F j < 0 then p else !p) then w j / 2
        else - (w j / 2)) = C * (a * ∑ j ∈ Finset.range J, |F j|)
        + C * ((if p then 1 else -1) * ((∑ j ∈ Finset.range J, F j * w j) / 2)) := by
    intro J F a p w
    rw [← group_half, Finset.mul_sum, Finset.mul_sum, ← Finset.sum_add_distrib]
    apply Finset.sum_congr rfl
    intro j _
    ring
  have hk : ∀ n < S.N, ∀ p, Kirchhoff sol (oaNet S G C) (fmt "VGND_" n (sfx p)) := by
    intro n hn p t
    obtain ⟨d, hd, eq⟩ := oaNet_leaving law sol S G C hin hob n hn p t
    have hd' := hd.unique (hxh n hn p t)
    rw [eq, hd']
    change ∑ j ∈ Finset.range S.L, C * |S.B n j| * (P (fmt "VGND_" n (sfx p)) t
          - P (fmt "IN" j (sfx (if S.B n j < 0 then p else !p))) t)
        + ∑ j ∈ Finset.range S.N, C * |S.A n j| * (P (fmt "VGND_" n (sfx p)) t
          - P (fmt "X" j (sfx (if S.A n j < 0 then p else !p))) t)
        + ∑ j ∈ Finset.range S.M, C * |G n j| * (P (fmt "VGND_" n (sfx p)) t
          - P (fmt "OUT" j (sfx (if G n j < 0 then p else !p))) t) + _ = 0
    simp only [hV, hX, hU, hS, Signal.half]
    rw [split, split, split]
    cases p <;> simp <;> ring
  refine ⟨law, sol, hop, hob, fun n hn => ⟨hk n hn true, hk n hn false⟩, ?_, ?_, ?_, ?_⟩
  · intro n
    funext t
    change P (fmt "X" n (sfx true)) t - P (fmt "X" n (sfx false)) t = _
    rw [hX, hX]
    simp [Signal.half]
  · intro n
    funext t
    change P (fmt "VGND_" n (sfx true)) t - P (fmt "VGND_" n (sfx false)) t = _
    rw [hV, hV]
    simp
  · intro n
    funext t
    change P (fmt "IN" n (sfx true)) t - P (fmt "IN" n (sfx false)) t = _
    rw [hU, hU]
    simp [Signal.half]
  · intro n
    funext t
    change P (fmt "OUT" n (sfx true)) t - P (fmt "OUT" n (sfx false)) t = _
    rw [hS, hS]
    simp [Signal.half]

/-- The hypotheses of `C93_error` are met by an integrator at rest: input one, no control, op-amps of
gain 100, state 100. -/
example : ∃ c D, opampFrontend (fun e k => fmt e k "") oneIntegrator 1 = .ok c ∧
    opampMacro (fun e k => fmt e k "") (2 * Real.pi) 1 100 1 = .ok D ∧
    ∃ (law : Law) (sol : Sol), (∀ v i, law "opamp" v i → ObeysDef law D v i) ∧
      (∀ l ∈ c.netlist (Obj.name fun e k => fmt e k ""), Obeys law sol l) ∧
      (∀ n < 1, Kirchhoff sol (c.netlist (Obj.name fun e k => fmt e k "")) (fmt "VGND_" n "_P") ∧
        Kirchhoff sol (c.netlist (Obj.name fun e k => fmt e k "")) (fmt "VGND_" n "_N")) ∧
      (∀ t, |diff sol (fmt "X" 0 "_P") (fmt "X" 0 "_N") t| ≤ 100) ∧
      ∀ t, |deriv (diff sol (fmt "X" 0 "_P") (fmt "X" 0 "_N")) t| ≤ 0 := by
  obtain ⟨c, D, hc, hD, law, sol, h1, h2, h3, h4, _⟩ := C93_realisable (fun e k => fmt e k "")
    oneIntegrator 1 1 100 1 one_pos (by norm_num) one_ne_zero (fun _ _ => -2) rfl (fun _ _ => 100)
    (fun _ _ => -1 / 2) (fun _ _ => 1) (fun _ _ => 0)
    (by
      intro n _ t
      refine (hasDerivAt_const t (100 : ℝ)).congr_deriv ?_
      norm_num)
    (by
      intro n _ t
      refine (hasDerivAt_const t ((100 : ℝ) - -1 / 2)).congr_deriv ?_
      simp [oneIntegrator]
      norm_num)
  refine ⟨c, D, hc, hD, law, sol, h1, h2, h3, ?_, ?_⟩
  · intro t
    rw [h4 0]
    norm_num
  · intro t
    rw [h4 0]
    simp

/-- `C92_one_pole`, `C92_static`, `C92_sinusoid`: a gain-bandwidth product of one kilohertz and a gain of 100. -/
example : (∃ D, opampMacro (fun e k => fmt e k "") (2 * Real.pi) 1000 100 1 = .ok D) ∧
    (∀ (v i : ℕ → ℝ → ℝ) (c : ℕ → ℝ), OnePole (2 * Real.pi * 1000) 100 v i → (∀ k t, v k t = c k) →
      c 5 - c 6 = - (2 * 100 * (c 3 - c 4))) ∧
    ∃ v i, OnePole (2 * Real.pi * 1000) 100 v i ∧ ∀ t, v 3 t - v 4 t = Real.cos (50 * t) := by
  have hw : 2 * Real.pi * 1000 ≠ 0 := by positivity
  refine ⟨?_, fun v i c h hc => ?_, ?_⟩
  · obtain ⟨D, h, -⟩ := (C92_one_pole (fun e k => fmt e k "") 1000 100 1).2 (by norm_num)
    exact ⟨D, h⟩
  · exact (C92_static _ 100 hw (by norm_num) v i h c hc).2.2
  · obtain ⟨a, b, -, -, v, i, h1, h2, -⟩ := C92_sinusoid _ 100 50 hw (by norm_num)
    exact ⟨v, i, h1, h2⟩


end Cbadc.Circuit
