import Verif.Spec.Comparator
import Verif.Props.DigitalCircuit

/-! # C128: the clocked comparators -/

namespace Cbadc.Circuit
open Spec

section
variable {K : Type*}

/-- A terminal without connections is printed under its own name. -/
theorem star_free (ids : String → ℕ → String) (cs : List (Obj × Obj)) (h : Star cs)
    (hn : ∀ c ∈ cs, c.1.name ids ≠ "") (t : Obj) (ht : ∀ c ∈ cs, t ≠ c.1 ∧ t ≠ c.2) :
    (Wires.connects (Obj.name ids) cs .empty).node (Obj.name ids) t = t.name ids := by
  have I := starInv_connects (Obj.name ids) cs h hn
  have : (Wires.connects (Obj.name ids) cs .empty).port t = none := by
    have := (I.touched t).not.mpr (by
      rintro ⟨c, hc, e | e⟩
      · exact (ht c hc).1 e
      · exact (ht c hc).2 e)
    simpa using this
  unfold Wires.node
  rw [this]

/-- The connections of the comparator with differential outputs. -/
def clockedConns : List (Obj × Obj) :=
  [(.own "CLK", .pin "Aclk_adc" "IN"), (.own "VCM", .pin "Aclk_adc" "VCM"), (.own "IN", .pin "Ain_adc" "IN"),
   (.own "VCM", .pin "Ain_adc" "VCM"), (.own "OUT_P", .pin "Adac_p" "OUT"), (.own "OUT_N", .pin "Adac_n" "OUT"),
   (.own "CLKD", .pin "Adffp" "CLK"), (.own "CLKD", .pin "Aclk_adc" "OUT"),
   (.pin "Ain_adc" "OUT", .pin "Adffp" "IN"), (.pin "Adffp" "F_OUT_P", .pin "Adac_p" "IN"),
   (.pin "Adffp" "F_OUT_N", .pin "Adac_n" "IN")]

/-- The definition of the comparator with differential outputs. -/
def clockedDef : Def K :=
  ⟨comparatorPins,
   [⟨"Aclk_adc", .other "adc_vd", ["CLK", "CLKD", "VCM"]⟩,
    ⟨"Ain_adc", .other "adc_vd", ["IN", "OUT", "VCM"]⟩,
    ⟨"Adffp", .other "dflip", ["OUT", "CLKD", "SET", "RES", "F_OUT_P", "F_OUT_N"]⟩,
    ⟨"Adac_p", .other "dac", ["F_OUT_P", "OUT_P"]⟩,
    ⟨"Adac_n", .other "dac", ["F_OUT_N", "OUT_N"]⟩]⟩

theorem clocked_def (ids : String → ℕ → String) : (clockedComparator ids : Res (Def K)) = .ok clockedDef := by
  have hs : Star clockedConns := by
    constructor
    · decide +kernel
    · decide +kernel
  have hn : ∀ c ∈ clockedConns, c.1.name ids ≠ "" := by
    intro c hc
    simp only [clockedConns, List.mem_cons, List.not_mem_nil, or_false] at hc
    rcases hc with rfl | rfl | rfl | rfl | rfl | rfl | rfl | rfl | rfl | rfl | rfl <;> simp [Obj.name]
  have hnode := fun c hc => star_node (Obj.name ids) clockedConns hs hn c hc
  have hfree := star_free ids clockedConns hs hn
  have hc : conns (clockedOps : List (Op Obj K)) = clockedConns := rfl
  unfold clockedComparator
  rw [run_eq _ _ _ (by
    change (["Aclk_adc", "Ain_adc", "Adffp", "Adac_p", "Adac_n"] : List String).Nodup
    decide), hc]
  unfold Sub.definition Sub.netlist clockedDef
  dsimp only
  rw [show (Sub.empty : Sub Obj K).parts = [] from rfl, List.nil_append,
    show (Sub.empty : Sub Obj K).wires = .empty from rfl]
  obtain ⟨w, hw⟩ : ∃ w, w = Wires.connects (Obj.name ids) clockedConns .empty := ⟨_, rfl⟩
  rw [← hw] at hnode hfree ⊢
  have h1 := fun c (hc : c ∈ clockedConns) => (hnode c hc).1
  have h2 := fun c (hc : c ∈ clockedConns) => (hnode c hc).2
  simp only [clockedConns, List.forall_mem_cons, List.not_mem_nil, false_imp_iff, implies_true, and_true] at h1 h2
  have h3 := hfree (.pin "Adffp" "SET") (by decide +kernel)
  have h4 := hfree (.pin "Adffp" "RES") (by decide +kernel)
  simp only [clockedOps, parts, comparatorPins, flipFlopPins, List.map_cons, List.map_nil, Part.line, nodeOrder,
    h1, h2, h3, h4, Obj.name, if_neg (show ¬ "adc_vd" = "adc" by decide)]

/-- The connections of the comparator with a single output. -/
def singleConns : List (Obj × Obj) :=
  [(.own "CLK", .pin "Aclk_adc" "IN"), (.own "VCM", .pin "Aclk_adc" "VCM"), (.own "IN", .pin "Ain_adc" "IN"),
   (.own "VCM", .pin "Ain_adc" "VCM"), (.own "OUT", .pin "Adac" "OUT"),
   (.own "CLKD", .pin "Adffp" "CLK"), (.own "CLKD", .pin "Aclk_adc" "OUT"),
   (.pin "Ain_adc" "OUT", .pin "Adffp" "IN"), (.pin "Adffp" "F_OUT_P", .pin "Adac" "IN")]

/-- The definition of the comparator with a single output. -/
def singleDef : Def K :=
  ⟨singlePins,
   [⟨"Aclk_adc", .other "adc_vd", ["CLK", "CLKD", "VCM"]⟩,
    ⟨"Ain_adc", .other "adc_vd", ["IN", "OUT", "VCM"]⟩,
    ⟨"Adffp", .other "dflip", ["OUT", "CLKD", "SET", "RES", "F_OUT_P", "F_OUT_N"]⟩,
    ⟨"Adac", .other "dac", ["F_OUT_P", "OUT"]⟩]⟩

theorem single_def (ids : String → ℕ → String) : (singleComparator ids : Res (Def K)) = .ok singleDef := by
  have hs : Star singleConns := by
    constructor
    · decide +kernel
    · decide +kernel
  have hn : ∀ c ∈ singleConns, c.1.name ids ≠ "" := by
    intro c hc
    simp only [singleConns, List.mem_cons, List.not_mem_nil, or_false] at hc
    rcases hc with rfl | rfl | rfl | rfl | rfl | rfl | rfl | rfl | rfl <;> simp [Obj.name]
  have hnode := fun c hc => star_node (Obj.name ids) singleConns hs hn c hc
  have hfree := star_free ids singleConns hs hn
  have hc : conns (singleOps : List (Op Obj K)) = singleConns := rfl
  unfold singleComparator
  rw [run_eq _ _ _ (by
    change (["Aclk_adc", "Ain_adc", "Adffp", "Adac"] : List String).Nodup
    decide), hc]
  unfold Sub.definition Sub.netlist singleDef
  dsimp only
  rw [show (Sub.empty : Sub Obj K).parts = [] from rfl, List.nil_append,
    show (Sub.empty : Sub Obj K).wires = .empty from rfl]
  obtain ⟨w, hw⟩ : ∃ w, w = Wires.connects (Obj.name ids) singleConns .empty := ⟨_, rfl⟩
  rw [← hw] at hnode hfree ⊢
  have h1 := fun c (hc : c ∈ singleConns) => (hnode c hc).1
  have h2 := fun c (hc : c ∈ singleConns) => (hnode c hc).2
  simp only [singleConns, List.forall_mem_cons, List.not_mem_nil, false_imp_iff, implies_true, and_true] at h1 h2
  have h3 := hfree (.pin "Adffp" "SET") (by decide +kernel)
  have h4 := hfree (.pin "Adffp" "RES") (by decide +kernel)
  have h5 := hfree (.pin "Adffp" "F_OUT_N") (by decide +kernel)
  simp only [singleOps, parts, singlePins, flipFlopPins, List.map_cons, List.map_nil, Part.line, nodeOrder,
    h1, h2, h3, h4, h5, Obj.name, if_neg (show ¬ "adc_vd" = "adc" by decide)]

end

/-! ## Behaviour -/

/-- the digital clock of a comparator over one period -/
theorem clock_edges {p : Timing} {a b c : ℝ → ℝ} (h : AdcLaw p a b c) {e f n : ℝ}
    (hp : Period p.hi (fun s => a s - b s) e f n) :
    Rising c (e + p.adc) ∧ ∀ e', e + p.adc < e' → e' < n + p.adc → ¬ MayRise c e' := by
  obtain ⟨hef, hfn, ⟨ε, hε, hb⟩, ho, hz⟩ := hp
  have one : ∀ s, e + p.adc < s → s < f + p.adc → c s = 1 := by
    intro s h1 h2
    have := (h (s - p.adc)).2.1 (ho _ (by linarith) (by linarith))
    rwa [sub_add_cancel] at this
  have zero : ∀ s, f + p.adc < s → s < n + p.adc → c s ≠ 1 := by
    intro s h1 h2
    have := (h (s - p.adc)).2.2 (hz _ (by linarith) (by linarith))
    rwa [sub_add_cancel] at this
  refine ⟨⟨min ε (f - e), lt_min hε (by linarith), ?_, ?_⟩, ?_⟩
  · intro s h1 h2
    have hm : min ε (f - e) ≤ ε := min_le_left _ _
    have := (h (s - p.adc)).2.2 (hb _ (by linarith) (by linarith))
    rwa [sub_add_cancel] at this
  · intro s h1 h2
    have hm : min ε (f - e) ≤ f - e := min_le_right _ _
    exact one s h1 (by linarith)
  · intro e' h1 h2 hr
    rcases lt_trichotomy e' (f + p.adc) with hlt | heq | hgt
    · obtain ⟨⟨s, hs1, hs2, hs3⟩, -⟩ := hr (e' - (e + p.adc)) (by linarith)
      exact hs3 (one s (by linarith) (by linarith))
    · subst heq
      by_cases hc : c (f + p.adc) = 1
      · obtain ⟨⟨s, hs1, hs2, hs3⟩, -⟩ := hr (f - e) (by linarith)
        rcases hs2.lt_or_eq with h | h
        · exact hs3 (one s (by linarith) h)
        · exact hs3 (h ▸ hc)
      · obtain ⟨-, s, hs1, hs2, hs3⟩ := hr (n - f) (by linarith)
        rcases hs1.lt_or_eq with h | h
        · exact zero s h (by linarith) hs3
        · exact hc (h ▸ hs3)
    · obtain ⟨-, s, hs1, hs2, hs3⟩ := hr (n + p.adc - e') (by linarith)
      exact zero s (by linarith) (by linarith) hs3

/-- C128: after a rising edge of the clock at `e`, and until the next one at `n`, each up to the delays of the
devices, the outputs of the comparator are what the difference of `IN` and `VCM` was at `e`: high and low if it
was above the upper threshold, low and high if it was below the lower one. -/
theorem C128_decides (ids : String → ℕ → String) :
    ∃ D, (clockedComparator ids : Res (Def ℝ)) = .ok D ∧ D.ports = ["CLK", "IN", "OUT_P", "OUT_N", "VCM"] ∧
      ∀ (p : Timing) (v : ℕ → ℝ → ℝ), ObeysMixed p D v → ∀ e f n,
        Period p.hi (fun s => v 0 s - v 4 s) e f n →
        (Around e (fun s => p.hi < v 1 s - v 4 s) →
          ∀ t, e + p.adc + p.dff + p.ramp < t → t ≤ n + p.adc + p.dff → v 2 t = p.high ∧ v 3 t = p.low) ∧
        (Around e (fun s => v 1 s - v 4 s < p.lo) →
          ∀ t, e + p.adc + p.dff + p.ramp < t → t ≤ n + p.adc + p.dff → v 2 t = p.low ∧ v 3 t = p.high) := by
  refine ⟨clockedDef, clocked_def ids, rfl, ?_⟩
  rintro p v ⟨pot, hl, hv⟩ e f n hp
  simp only [clockedDef, List.forall_mem_cons, List.not_mem_nil, false_imp_iff, implies_true, and_true] at hl
  obtain ⟨hclk, hin, hff, hdp, hdn⟩ := hl
  have h0 : pot "CLK" = v 0 := hv 0 (by decide)
  have h1 : pot "IN" = v 1 := hv 1 (by decide)
  have h2 : pot "OUT_P" = v 2 := hv 2 (by decide)
  have h3 : pot "OUT_N" = v 3 := hv 3 (by decide)
  have h4 : pot "VCM" = v 4 := hv 4 (by decide)
  simp only [MixedLaw] at hclk hin hff hdp hdn
  rw [h0, h4] at hclk
  rw [h1, h4] at hin
  rw [h2] at hdp
  rw [h3] at hdn
  obtain ⟨hr, hno⟩ := clock_edges hclk hp
  have key : ∀ b, (b = 0 ∨ b = 1) → Around (e + p.adc) (fun s => pot "OUT" s = b) →
      ∀ t, e + p.adc + p.dff + p.ramp < t → t ≤ n + p.adc + p.dff → ∀ s, t - p.ramp ≤ s → s ≤ t →
        pot "F_OUT_P" s = b ∧ pot "F_OUT_N" s = 1 - b := by
    intro b hb hd t ht1 ht2 s hs1 hs2
    have := hff (e + p.adc) b hb hr hd (s - p.dff) (by linarith)
      (fun e' he1 he2 => hno e' he1 (by linarith))
    rwa [sub_add_cancel] at this
  constructor
  · rintro ⟨ε, hε, ha⟩ t ht1 ht2
    have hk := key 1 (Or.inr rfl) ⟨ε, hε, fun s hs1 hs2 => by
      have := (hin (s - p.adc)).2.1 (ha _ (by linarith) (by linarith))
      rwa [sub_add_cancel] at this⟩ t ht1 ht2
    refine ⟨(hdp t).1 fun s hs1 hs2 => (hk s hs1 hs2).1, (hdn t).2 fun s hs1 hs2 => ?_⟩
    rw [(hk s hs1 hs2).2, sub_self]
  · rintro ⟨ε, hε, ha⟩ t ht1 ht2
    have hk := key 0 (Or.inl rfl) ⟨ε, hε, fun s hs1 hs2 => by
      have := (hin (s - p.adc)).1 (ha _ (by linarith) (by linarith))
      rwa [sub_add_cancel] at this⟩ t ht1 ht2
    refine ⟨(hdp t).2 fun s hs1 hs2 => (hk s hs1 hs2).1, (hdn t).1 fun s hs1 hs2 => ?_⟩
    rw [(hk s hs1 hs2).2, sub_zero]

/-- C128, together with C94: in every solution of the digital control circuit, supplied with the common mode
`VCM = mid`, control `off + i` is positive after a rising edge of the clock if entry `i` of the control
observation was above the upper threshold at the edge, and negative if it was below the lower one. -/
theorem C128_control (ids : String → ℕ → String) (S : Analog.Sys ℝ) (off : ℕ) (mid : ℝ)
    (GT : ℕ → ℕ → ℝ) (hG : S.GammaT = some GT) (hM : S.M - off = S.Mt) :
    ∃ c ds D, digitalControl ids S off mid = .ok (c, ds) ∧ clockedComparator ids = .ok D ∧
      ∀ (law : Law) (sol : Sol) (p : Timing),
        (∀ i D, ds[i]? = some D → ∀ v j, law (fmt "multi_input_comparator_" (off + i) "") v j →
          ObeysDef law D v j) →
        (∀ v j, law "clocked_comparator" v j → ObeysMixed p D v) →
        (∀ l ∈ c.netlist (Obj.name ids), Obeys law sol l) →
        (∀ t, sol.v "VCM" t = mid) →
        ∀ y : ℝ → Analog.Vec ℝ, (∀ t, S.controlObservation
            ⟨S.N, fun n => diff sol (fmt "X" n "_P") (fmt "X" n "_N") t⟩
            (some ⟨S.L, fun l => diff sol (fmt "IN" l "_P") (fmt "IN" l "_N") t⟩)
            (some ⟨S.M, fun m => diff sol (fmt "S" m "_P") (fmt "S" m "_N") t⟩) = .ok (y t)) →
        ∀ e f n, Period p.hi (diff sol "CLK" "VCM") e f n → ∀ i < S.Mt,
          ∀ t, e + p.adc + p.dff + p.ramp < t → t ≤ n + p.adc + p.dff →
            (Around e (fun s => p.hi < (y s).v i) →
              diff sol (fmt "S" (off + i) "_P") (fmt "S" (off + i) "_N") t = p.high - p.low) ∧
            (Around e (fun s => (y s).v i < p.lo) →
              diff sol (fmt "S" (off + i) "_P") (fmt "S" (off + i) "_N") t = p.low - p.high) := by
  obtain ⟨c, ds, hc, -, hob⟩ := C94_observation ids S off mid GT hG hM
  obtain ⟨D, hD, -, hdec⟩ := C128_decides ids
  refine ⟨c, ds, D, hc, hD, ?_⟩
  intro law sol p hdefs hcomp hnet hvcm y hy e f n hper i hi t ht1 ht2
  obtain ⟨v, j, hl, hv0, hv4, hv2, hv3, hin⟩ := hob law sol hdefs hnet i hi
  have hd := hdec p v (hcomp v j hl) e f n (by rw [hv0, hv4]; exact hper)
  have hyi : ∀ s, v 1 s - v 4 s = (y s).v i := by
    intro s
    obtain ⟨y', hy', hv1⟩ := hin s
    have : y' = y s := by
      have := hy'.symm.trans (hy s)
      injection this
    rw [hv1, hv4, hvcm, this, add_sub_cancel_right]
  simp only [hyi] at hd
  unfold diff
  rw [← hv2, ← hv3]
  refine ⟨fun h => ?_, fun h => ?_⟩
  · obtain ⟨a, b⟩ := hd.1 h t ht1 ht2
    rw [a, b]
  · obtain ⟨a, b⟩ := hd.2 h t ht1 ht2
    rw [a, b]

/-- In the comparator with a single output the data input of the flip-flop is on the node of the output port,
although no connection joins the two. -/
theorem C128_single_false (ids : String → ℕ → String) :
    ∃ D, (singleComparator ids : Res (Def ℝ)) = .ok D ∧ "OUT" ∈ D.ports ∧ At D.body "Adffp" 0 "OUT" ∧
      At D.body "Ain_adc" 1 "OUT" ∧ At D.body "Adac" 1 "OUT" ∧
      ¬ Linked (conns (singleOps : List (Op Obj ℝ))) (.pin "Adffp" "IN") (.own "OUT") := by
  refine ⟨singleDef, single_def ids, by decide,
    ⟨_, List.mem_cons_of_mem _ (List.mem_cons_of_mem _ List.mem_cons_self), rfl, rfl⟩,
    ⟨_, List.mem_cons_of_mem _ List.mem_cons_self, rfl, rfl⟩,
    ⟨_, List.mem_cons_of_mem _ (List.mem_cons_of_mem _ (List.mem_cons_of_mem _ List.mem_cons_self)), rfl, rfl⟩, ?_⟩
  intro h
  have key : ∀ a b, Linked (conns (singleOps : List (Op Obj ℝ))) a b →
      ((a = .pin "Adffp" "IN" ∨ a = .pin "Ain_adc" "OUT") ↔ (b = .pin "Adffp" "IN" ∨ b = .pin "Ain_adc" "OUT")) := by
    intro a b h
    induction h with
    | rel a b h =>
      change (a, b) ∈ singleConns at h
      simp only [singleConns, List.mem_cons, List.not_mem_nil, or_false, Prod.mk.injEq] at h
      rcases h with ⟨rfl, rfl⟩ | ⟨rfl, rfl⟩ | ⟨rfl, rfl⟩ | ⟨rfl, rfl⟩ | ⟨rfl, rfl⟩ | ⟨rfl, rfl⟩ | ⟨rfl, rfl⟩ |
        ⟨rfl, rfl⟩ | ⟨rfl, rfl⟩ <;> simp
    | refl => exact Iff.rfl
    | symm _ _ _ ih => exact ih.symm
    | trans _ _ _ _ _ ih1 ih2 => exact ih1.trans ih2
  have := (key _ _ h).mp (Or.inl rfl)
  simp at this

/-! ## A case -/

/-- Thresholds at zero, all delays one second, outputs between zero and two volts. -/
def timingEx : Timing := ⟨0, 0, 1, 1, 1, 0, 2⟩

/-- A clock that rises at time zero, an input of one volt; the common mode is zero. -/
noncomputable def potEx : String → ℝ → ℝ := fun s t =>
  if s = "CLK" then (if t < 0 then -1 else 1)
  else if s = "CLKD" then (if t < 1 then 0 else 1)
  else if s = "IN" then 1
  else if s = "OUT" then 1
  else if s = "F_OUT_P" then (if t ≤ 2 then 0 else 1)
  else if s = "F_OUT_N" then (if t ≤ 2 then 1 else 0)
  else if s = "OUT_P" then (if t ≤ 2 then 0 else if t ≤ 3 then 1 else 2)
  else if s = "OUT_N" then (if t ≤ 2 then 2 else if t ≤ 3 then 1 else 0)
  else 0

theorem potEx_obeys : ObeysMixed timingEx clockedDef fun k => potEx (comparatorPins.getD k "") := by
  refine ⟨potEx, ?_, ?_⟩
  · simp only [clockedDef, List.forall_mem_cons, List.not_mem_nil, false_imp_iff, implies_true, and_true, MixedLaw]
    refine ⟨?_, ?_, ?_, ?_, ?_⟩
    · intro t
      simp only [timingEx]
      simp only [potEx, String.reduceEq, if_true, if_false]
      by_cases h : t < 0
      · have h' : t + 1 < 1 := by linarith
        rw [if_pos h, if_pos h']
        norm_num
      · have h' : ¬ t + 1 < 1 := by linarith
        rw [if_neg h, if_neg h']
        norm_num
    · intro t
      simp only [timingEx]
      simp only [potEx, String.reduceEq, if_true, if_false]
      norm_num
    · rintro e b hb ⟨ε, hε, h0, h1⟩ ⟨ε', hε', hd⟩ t ht hno
      have hb1 : b = 1 := by
        have := hd e (by linarith) (by linarith)
        simp only [potEx, String.reduceEq, if_true, if_false] at this
        exact this.symm
      have he : 1 ≤ e := by
        by_contra hlt
        have hlt : e < 1 := not_le.mp hlt
        have := h1 (min (e + ε / 2) ((e + 1) / 2)) (lt_min (by linarith) (by linarith))
          (lt_of_le_of_lt (min_le_left _ _) (by linarith))
        have hm : min (e + ε / 2) ((e + 1) / 2) < 1 := lt_of_le_of_lt (min_le_right _ _) (by linarith)
        simp only [potEx, String.reduceEq, if_true, if_false] at this
        rw [if_pos hm] at this
        norm_num at this
      subst hb1
      simp only [timingEx]
      simp only [potEx, String.reduceEq, if_true, if_false]
      rw [if_neg (by linarith), if_neg (by linarith)]
      norm_num
    · intro t
      constructor
      · intro h
        have h1 := h (t - 1) (by simp [timingEx]) (by linarith)
        simp only [potEx, timingEx, String.reduceEq, if_true, if_false] at h1 ⊢
        by_cases hc : t - 1 ≤ 2
        · rw [if_pos hc] at h1; norm_num at h1
        · rw [if_neg (by linarith), if_neg (by linarith)]
      · intro h
        have h1 := h t (by simp [timingEx]) le_rfl
        simp only [potEx, timingEx, String.reduceEq, if_true, if_false] at h1 ⊢
        by_cases hc : t ≤ 2
        · rw [if_pos hc]
        · rw [if_neg hc] at h1; norm_num at h1
    · intro t
      constructor
      · intro h
        have h1 := h t (by simp [timingEx]) le_rfl
        simp only [potEx, timingEx, String.reduceEq, if_true, if_false] at h1 ⊢
        by_cases hc : t ≤ 2
        · rw [if_pos hc]
        · rw [if_neg hc] at h1; norm_num at h1
      · intro h
        have h1 := h (t - 1) (by simp [timingEx]) (by linarith)
        simp only [potEx, timingEx, String.reduceEq, if_true, if_false] at h1 ⊢
        by_cases hc : t - 1 ≤ 2
        · rw [if_pos hc] at h1; norm_num at h1
        · rw [if_neg (by linarith), if_neg (by linarith)]
  · intro k hk
    have hk' : k < comparatorPins.length := hk
    dsimp only
    rw [List.getD_eq_getElem?_getD, List.getElem?_eq_getElem hk']
    rfl

/-- The hypotheses of `C128_decides` are met by this clock and input, and the decision falls at time zero. -/
example : ∀ t, 3 < t → t ≤ 12 → potEx "OUT_P" t = 2 ∧ potEx "OUT_N" t = 0 := by
  obtain ⟨D, hD, -, h⟩ := C128_decides fun _ _ => ""
  have e : D = clockedDef := by
    have := hD.symm.trans (clocked_def _)
    injection this
  subst e
  have := (h timingEx _ potEx_obeys 0 10 10 ⟨by norm_num, le_rfl, ⟨1, one_pos, ?_⟩, ?_, ?_⟩).1 ⟨1, one_pos, ?_⟩
  · intro t h1 h2
    exact this t (by norm_num [timingEx]; linarith) (by norm_num [timingEx]; linarith)
  · intro s _ hs
    simp only [comparatorPins, List.getD_cons_zero, List.getD_cons_succ, potEx, timingEx, String.reduceEq, if_true,
      if_false]
    rw [if_pos hs]
    norm_num
  · intro s hs _
    simp only [comparatorPins, List.getD_cons_zero, List.getD_cons_succ, potEx, timingEx, String.reduceEq, if_true,
      if_false]
    rw [if_neg (by linarith)]
    norm_num
  · intro s h1 h2
    linarith
  · intro s _ _
    simp only [comparatorPins, List.getD_cons_zero, List.getD_cons_succ, potEx, timingEx, String.reduceEq, if_true,
      if_false]
    norm_num

/-- A system with one state, one input and one control, which observes the state. -/
def sysEx : Analog.Sys ℝ :=
  ⟨1, 1, 1, 1, 1, fun _ _ => 0, fun _ _ => 1, fun _ _ => 1, some fun _ _ => 1, some fun _ _ => 1, fun _ _ => 0,
    fun _ _ => 0, fun _ _ => 0⟩

/-- The state is one volt; the control and the clock are those of the comparator above. -/
noncomputable def circEx : String → ℝ → ℝ := fun s =>
  if s = "CLK" then potEx "CLK" else if s = "S0_P" then potEx "OUT_P" else if s = "S0_N" then potEx "OUT_N"
  else if s = "X0_P" then fun _ => 1 else fun _ => 0

theorem circEx_comparator : ∀ i < sysEx.Mt, ObeysMixed timingEx clockedDef fun k =>
    Function.update circEx "STILDE" (summed sysEx (fun _ _ => 1) 0 circEx i)
      (["CLK", "STILDE", fmt "S" (0 + i) "_P", fmt "S" (0 + i) "_N", "VCM"].getD k "") := by
  intro i hi
  obtain rfl : i = 0 := by
    have : i < 1 := hi
    omega
  obtain ⟨pot, h1, h2⟩ := potEx_obeys
  refine ⟨pot, h1, ?_⟩
  intro k hk
  rw [h2 k hk]
  have hk' : k < 5 := hk
  have hs : summed sysEx (fun _ _ => 1) 0 circEx 0 = potEx "IN" := by
    funext t
    have hp : fmt "X" 0 "_P" = "X0_P" := by decide +kernel
    have hn : fmt "X" 0 "_N" = "X0_N" := by decide +kernel
    simp [summed, sysEx, hp, hn, circEx, potEx]
  have hp : fmt "S" (0 + 0) "_P" = "S0_P" := by decide +kernel
  have hn : fmt "S" (0 + 0) "_N" = "S0_N" := by decide +kernel
  rw [hs, hp, hn]
  funext t
  interval_cases k <;> simp [comparatorPins, circEx, potEx]

/-- The hypotheses of `C128_control` are met by these potentials: the control turns positive. -/
example : ∀ t, 3 < t → t ≤ 12 → circEx "S0_P" t - circEx "S0_N" t = 2 := by
  intro t ht1 ht2
  obtain ⟨c, ds, hc, law, sol, hv, hl, hd, hn⟩ := realisable_with (fun _ _ => "") sysEx 0 0 (fun _ _ => 1) rfl rfl
    circEx (ObeysMixed timingEx clockedDef) circEx_comparator
  obtain ⟨c', ds', D, hc', hD, h⟩ := C128_control (fun _ _ => "") sysEx 0 0 (fun _ _ => 1) rfl rfl
  obtain ⟨rfl, rfl⟩ : c = c' ∧ ds = ds' := by
    have := hc.symm.trans hc'
    injection this with this
    injection this with a b
    exact ⟨a, b⟩
  obtain rfl : D = clockedDef := by
    have := hD.symm.trans (clocked_def _)
    injection this
  have hp : fmt "S" (0 + 0) "_P" = "S0_P" := by decide +kernel
  have hm : fmt "S" (0 + 0) "_N" = "S0_N" := by decide +kernel
  have hxp : fmt "X" 0 "_P" = "X0_P" := by decide +kernel
  have hxn : fmt "X" 0 "_N" = "X0_N" := by decide +kernel
  have := (h law sol timingEx hd (fun v j hlv => (hl v j).mp hlv) hn (fun t => by simp [hv, circEx])
    _ (fun _ => rfl) 0 10 10 ⟨by norm_num, le_rfl, ⟨1, one_pos, ?_⟩, ?_, ?_⟩ 0 one_pos t
    (by norm_num [timingEx]; linarith) (by norm_num [timingEx]; linarith)).1 ⟨1, one_pos, ?_⟩
  · rw [hp, hm, diff, hv] at this
    rw [this]
    norm_num [timingEx]
  · intro s _ hs
    simp only [diff, hv, circEx, potEx, timingEx, String.reduceEq, if_true, if_false]
    rw [if_pos hs]
    norm_num
  · intro s hs _
    simp only [diff, hv, circEx, potEx, timingEx, String.reduceEq, if_true, if_false]
    rw [if_neg (by linarith)]
    norm_num
  · intro s h1 h2
    linarith
  · intro s _ _
    simp [sysEx, diff, hv, Analog.npAdd, Analog.dot, hxp, hxn, circEx, timingEx]

end Cbadc.Circuit
