import Verif.Props.Comparator

/-! # C129: the multi-phase digital control circuit -/

namespace Cbadc.Circuit
open Spec

section
variable {K : Type*} [Field K] [LinearOrder K]

/-- The parts of the multi-phase control. -/
inductive MpPart
  | mic (m : ℕ)
  | dly (m : ℕ)

def MpPart.inst : MpPart → String
  | .mic m => fmt "Xmic_" m ""
  | .dly m => fmt "A_delay_" m ""

def MpPart.hubPin : MpPart → String → String
  | .mic m, s => if s = "CLK" then fmt "CLK_" m "" else s
  | .dly m, s => if s = "IN" then "CLK" else if s = "CNTRL" then "VDD" else if s = "OUT" then fmt "CLK_" m "" else s

theorem mp_inj : Function.Injective MpPart.inst := by
  rintro (a | a) (b | b) h <;> simp only [MpPart.inst] at h <;> names at h
  · rw [h]
  · rw [h]

theorem fmt_ne_clk (n : ℕ) : fmt "X" n "_P" ≠ "CLK" ∧ fmt "X" n "_N" ≠ "CLK" ∧ fmt "IN" n "_P" ≠ "CLK" ∧
    fmt "IN" n "_N" ≠ "CLK" ∧ fmt "S" n "_P" ≠ "CLK" ∧ fmt "S" n "_N" ≠ "CLK" := by
  refine ⟨?_, ?_, ?_, ?_, ?_, ?_⟩ <;> intro h <;> names at h

omit [Field K] [LinearOrder K] in
theorem mp_conns (N L M Mt off : ℕ) (t0 : ℕ → K) (c : Obj × Obj) :
    c ∈ conns (multiPhaseOps N L M Mt off t0) ↔
      (∃ i < Mt, ∃ s ∈ delayPins, c = (.own ((MpPart.dly (off + i)).hubPin s), .pin (fmt "A_delay_" (off + i) "") s)) ∨
      ∃ i < Mt, ∃ s ∈ controlPins N L M,
        c = (.own ((MpPart.mic (off + i)).hubPin s), .pin (fmt "Xmic_" (off + i) "") s) := by
  unfold multiPhaseOps
  rw [conns_append, conns_append, conns_map_add, conns_map_add, List.nil_append, List.nil_append, conns_flatMap,
    List.mem_flatMap]
  simp only [cpins_mem, delayPins, List.cons_append, List.nil_append, conns, conns_append,
    conns_flatMap, List.mem_cons, List.mem_append, List.mem_flatMap, List.mem_range,
    List.not_mem_nil, or_false]
  constructor
  · rintro ⟨i, hi, rfl | rfl | rfl | rfl | rfl | rfl | rfl | (⟨n, hn, rfl | rfl⟩ | ⟨n, hn, rfl | rfl⟩) | ⟨n, hn, rfl | rfl⟩⟩
    · exact Or.inl ⟨i, hi, "IN", by simp, rfl⟩
    · exact Or.inl ⟨i, hi, "CNTRL", by simp, rfl⟩
    · exact Or.inl ⟨i, hi, "OUT", by simp, rfl⟩
    · exact Or.inr ⟨i, hi, "CLK", by simp, rfl⟩
    · exact Or.inr ⟨i, hi, "VSS", by simp, rfl⟩
    · exact Or.inr ⟨i, hi, "VDD", by simp, rfl⟩
    · exact Or.inr ⟨i, hi, "VCM", by simp, rfl⟩
    · exact Or.inr ⟨i, hi, _, Or.inr (Or.inl ⟨n, hn, Or.inl rfl⟩), by
        rw [MpPart.hubPin, if_neg (fmt_ne_clk n).1]⟩
    · exact Or.inr ⟨i, hi, _, Or.inr (Or.inl ⟨n, hn, Or.inr rfl⟩), by
        rw [MpPart.hubPin, if_neg (fmt_ne_clk n).2.1]⟩
    · exact Or.inr ⟨i, hi, _, Or.inr (Or.inr (Or.inl ⟨n, hn, Or.inl rfl⟩)), by
        rw [MpPart.hubPin, if_neg (fmt_ne_clk n).2.2.1]⟩
    · exact Or.inr ⟨i, hi, _, Or.inr (Or.inr (Or.inl ⟨n, hn, Or.inr rfl⟩)), by
        rw [MpPart.hubPin, if_neg (fmt_ne_clk n).2.2.2.1]⟩
    · exact Or.inr ⟨i, hi, _, Or.inr (Or.inr (Or.inr ⟨n, hn, Or.inl rfl⟩)), by
        rw [MpPart.hubPin, if_neg (fmt_ne_clk n).2.2.2.2.1]⟩
    · exact Or.inr ⟨i, hi, _, Or.inr (Or.inr (Or.inr ⟨n, hn, Or.inr rfl⟩)), by
        rw [MpPart.hubPin, if_neg (fmt_ne_clk n).2.2.2.2.2]⟩
  · rintro (⟨i, hi, s, rfl | rfl | rfl, rfl⟩ | ⟨i, hi, s, (rfl | rfl | rfl | rfl) | ⟨n, hn, rfl | rfl⟩ |
      ⟨n, hn, rfl | rfl⟩ | ⟨n, hn, rfl | rfl⟩, rfl⟩)
    all_goals refine ⟨i, hi, ?_⟩
    · exact Or.inl rfl
    · exact Or.inr (Or.inr (Or.inl rfl))
    · exact Or.inr (Or.inl rfl)
    · exact Or.inr (Or.inr (Or.inr (Or.inr (Or.inl rfl))))
    · exact Or.inr (Or.inr (Or.inr (Or.inr (Or.inr (Or.inl rfl)))))
    · exact Or.inr (Or.inr (Or.inr (Or.inl rfl)))
    · exact Or.inr (Or.inr (Or.inr (Or.inr (Or.inr (Or.inr (Or.inl rfl))))))
    all_goals refine Or.inr (Or.inr (Or.inr (Or.inr (Or.inr (Or.inr (Or.inr ?_))))))
    · rw [MpPart.hubPin, if_neg (fmt_ne_clk n).1]
      exact Or.inl (Or.inl ⟨n, hn, Or.inl rfl⟩)
    · rw [MpPart.hubPin, if_neg (fmt_ne_clk n).2.1]
      exact Or.inl (Or.inl ⟨n, hn, Or.inr rfl⟩)
    · rw [MpPart.hubPin, if_neg (fmt_ne_clk n).2.2.1]
      exact Or.inl (Or.inr ⟨n, hn, Or.inl rfl⟩)
    · rw [MpPart.hubPin, if_neg (fmt_ne_clk n).2.2.2.1]
      exact Or.inl (Or.inr ⟨n, hn, Or.inr rfl⟩)
    · rw [MpPart.hubPin, if_neg (fmt_ne_clk n).2.2.2.2.1]
      exact Or.inr ⟨n, hn, Or.inl rfl⟩
    · rw [MpPart.hubPin, if_neg (fmt_ne_clk n).2.2.2.2.2]
      exact Or.inr ⟨n, hn, Or.inr rfl⟩

/-- The netlist of the multi-phase control. -/
def mpNet (N L M off : ℕ) (t0 : ℕ → K) : List (Line K) :=
  ((List.range (M - off)).map fun i => ⟨fmt "Xmic_" (off + i) "",
    .sub (fmt "multi_input_comparator_" (off + i) ""), (controlPins N L M).map (MpPart.mic (off + i)).hubPin⟩)
  ++ (List.range (M - off)).map fun i => ⟨fmt "A_delay_" (off + i) "", .delay (t0 (off + i)),
    ["CLK", fmt "CLK_" (off + i) "", "VDD"]⟩

omit [Field K] [LinearOrder K] in
theorem mp_netlist (ids : String → ℕ → String) (N L M Mt off : ℕ) (t0 : ℕ → K) (h : M - off = Mt) :
    ∃ s : Sub Obj K, Sub.run (Obj.name ids) (multiPhaseOps N L M Mt off t0) .empty = .ok s ∧
      s.netlist (Obj.name ids) = mpNet N L M off t0 := by
  have hp : parts (multiPhaseOps N L M Mt off t0) = ((List.range (M - off)).map fun i =>
      ⟨fmt "Xmic_" (off + i) "", .sub (fmt "multi_input_comparator_" (off + i) ""),
        (controlPins N L M).map (.pin (fmt "Xmic_" (off + i) ""))⟩) ++ (List.range (M - off)).map fun i =>
      ⟨fmt "A_delay_" (off + i) "", .delay (t0 (off + i)),
        delayPins.map (.pin (fmt "A_delay_" (off + i) ""))⟩ := by
    unfold multiPhaseOps
    simp only [List.cons_append, List.nil_append, parts, parts_append,
      parts_flatMap, parts_map_add, flatMap_none, List.append_nil]
  have hnd : ((Sub.empty.parts ++ parts (multiPhaseOps N L M Mt off t0)).map Part.inst).Nodup := by
    rw [show (Sub.empty : Sub Obj K).parts = [] from rfl, List.nil_append, hp, List.map_append, List.map_map,
      List.map_map, List.nodup_append]
    refine ⟨List.Nodup.map ?_ List.nodup_range, List.Nodup.map ?_ List.nodup_range, ?_⟩
    · intro a b e
      have := mp_inj (a₁ := .mic (off + a)) (a₂ := .mic (off + b)) e
      injection this
      omega
    · intro a b e
      have := mp_inj (a₁ := .dly (off + a)) (a₂ := .dly (off + b)) e
      injection this
      omega
    · intro a ha b hb e
      obtain ⟨i, -, rfl⟩ := List.mem_map.mp ha
      obtain ⟨j, -, rfl⟩ := List.mem_map.mp hb
      have := mp_inj (a₁ := .mic (off + i)) (a₂ := .dly (off + j)) e
      cases this
  have hform : ∀ c ∈ conns (multiPhaseOps N L M Mt off t0),
      (∃ q s, c = (.own (MpPart.hubPin q s), .pin (MpPart.inst q) s)) ∨
      ∃ (q : MpPart) (i : ℕ), c = (.own "", .num (MpPart.inst q) i) := by
    intro c hc
    rcases (mp_conns N L M Mt off t0 c).mp hc with ⟨i, -, s, -, rfl⟩ | ⟨i, -, s, -, rfl⟩
    · exact Or.inl ⟨.dly _, s, rfl⟩
    · exact Or.inl ⟨.mic _, s, rfl⟩
  have hne : ∀ c ∈ conns (multiPhaseOps N L M Mt off t0), c.1.name ids ≠ "" := by
    intro c hc
    rcases (mp_conns N L M Mt off t0 c).mp hc with ⟨i, -, s, hs, rfl⟩ | ⟨i, -, s, hs, rfl⟩
    · simp only [delayPins, List.mem_cons, List.not_mem_nil, or_false] at hs
      rcases hs with rfl | rfl | rfl
      · exact (by decide : "CLK" ≠ "")
      · exact fmt_ne_empty _ _ _ (by decide)
      · exact (by decide : "VDD" ≠ "")
    · change (if s = "CLK" then fmt "CLK_" (off + i) "" else s) ≠ ""
      split_ifs
      · exact fmt_ne_empty _ _ _ (by decide)
      · exact pins_ne N L M s hs
  have hnode := fun c hc => (hub_node mp_inj MpPart.hubPin (fun _ _ => "") ids _ hform hne c hc).2
  refine ⟨_, run_eq (Obj.name ids) _ .empty hnd, ?_⟩
  change (parts (multiPhaseOps N L M Mt off t0)).map (Part.line (Obj.name ids)
    (Wires.connects (Obj.name ids) (conns (multiPhaseOps N L M Mt off t0)) .empty)) = _
  rw [hp, List.map_append, List.map_map, List.map_map]
  unfold mpNet
  congr 1
  · apply List.map_congr_left
    intro i hi
    rw [List.mem_range] at hi
    simp only [Function.comp, Part.line, nodeOrder, List.map_map]
    congr 1
    apply List.map_congr_left
    intro s hs
    exact hnode _ ((mp_conns N L M Mt off t0 _).mpr (Or.inr ⟨i, by omega, s, hs, rfl⟩))
  · apply List.map_congr_left
    intro i hi
    rw [List.mem_range] at hi
    simp only [Function.comp, Part.line, nodeOrder, List.map_map]
    congr 1
    exact (List.map_congr_left (g := (MpPart.dly (off + i)).hubPin) fun s hs =>
      hnode _ ((mp_conns N L M Mt off t0 _).mpr (Or.inl ⟨i, by omega, s, hs, rfl⟩))).trans rfl

end

/-! ## The property -/

/-- C129, which controls are accepted: the constructor succeeds exactly when there are as many rows of the control
observation as controls without dither and an impulse response with the number of each of these controls. -/
theorem C129_shape (ids : String → ℕ → String) (S : Analog.Sys ℝ) (off : ℕ) (mid : ℝ) (t0 : List ℝ)
    (hS : S.GammaT = none → S.Mt = 0) :
    (∃ r, multiPhaseControl ids S off mid t0 = .ok r) ↔ S.M - off = S.Mt ∧ (off < S.M → S.M ≤ t0.length) := by
  constructor
  · rintro ⟨r, hr⟩
    have hd : ∃ r, digitalControl ids S off mid = .ok r := by
      unfold multiPhaseControl at hr
      unfold digitalControl
      cases hds : (List.range (S.M - off)).mapM (fun i => multiComparator ids S (off + i) i mid) with
      | error e =>
        rw [hds] at hr
        cases hr
      | ok ds =>
        rw [hds] at hr
        dsimp only at hr ⊢
        split_ifs at hr with h1 h2
        rw [if_neg h2]
        have hM : S.M - off = S.Mt := by
          by_contra hne
          have : ∃ e, multiComparator ids S (off + (S.M - off - 1)) (S.M - off - 1) mid = .error e := by
            unfold multiComparator
            split
            · exact ⟨_, rfl⟩
            · rw [if_pos (by omega)]
              exact ⟨_, rfl⟩
          obtain ⟨e, he⟩ := this
          obtain ⟨e', he'⟩ := Synthesis.mapM_error (fun i => multiComparator ids S (off + i) i mid)
            (List.range (S.M - off)) (S.M - off - 1) (List.mem_range.mpr (by omega)) e he
          rw [he'] at hds
          cases hds
        obtain ⟨s, hs, -⟩ := ctl_netlist (K := ℝ) ids S.N S.L S.M S.Mt off hM
        rw [hs]
        exact ⟨_, rfl⟩
    refine ⟨(C94_shape ids S off mid hS).mp hd, ?_⟩
    intro hlt
    by_contra hlen
    unfold multiPhaseControl at hr
    split at hr
    · cases hr
    · rw [if_pos ⟨S.M - 1 - off, by omega, by omega⟩] at hr
      cases hr
  · rintro ⟨hM, hlen⟩
    obtain ⟨r, hr⟩ := (C94_shape ids S off mid hS).mpr hM
    obtain ⟨s, hs, -⟩ := mp_netlist (K := ℝ) ids S.N S.L S.M S.Mt off (fun m => t0.getD m 0) hM
    unfold digitalControl at hr
    unfold multiPhaseControl
    cases hds : (List.range (S.M - off)).mapM (fun i => multiComparator ids S (off + i) i mid) with
    | error e =>
      rw [hds] at hr
      cases hr
    | ok ds =>
      dsimp only
      rw [if_neg (by
        rintro ⟨i, hi, h⟩
        have := hlen (by omega)
        omega), if_neg (by omega), hs]
      exact ⟨_, rfl⟩

theorem mp_ok (ids : String → ℕ → String) (S : Analog.Sys ℝ) (off : ℕ) (mid : ℝ) (t0 : List ℝ)
    (GT : ℕ → ℕ → ℝ) (hG : S.GammaT = some GT) (hM : S.M - off = S.Mt) (hlen : S.M ≤ t0.length) :
    ∃ c, multiPhaseControl ids S off mid t0 =
      .ok (c, (List.range (S.M - off)).map fun i => coDef S GT (off + i) i mid) ∧
      c.netlist (Obj.name ids) = mpNet S.N S.L S.M off fun m => t0.getD m 0 := by
  obtain ⟨c, hc, hn⟩ := mp_netlist (K := ℝ) ids S.N S.L S.M S.Mt off (fun m => t0.getD m 0) hM
  refine ⟨c, ?_, hn⟩
  unfold multiPhaseControl
  rw [mapM_ok _ _ (fun i => coDef S GT (off + i) i mid)
    (fun i hi => co_def ids S _ _ mid GT hG (by rw [List.mem_range] at hi; omega))]
  dsimp only
  rw [if_neg (by
    rintro ⟨i, hi, h⟩
    omega), if_neg (by omega), hc]

theorem getD_map (f : String → String) (l : List String) (k : ℕ) (h : f "" = "") :
    (l.map f).getD k "" = f (l.getD k "") := by
  rw [List.getD_eq_getElem?_getD, List.getD_eq_getElem?_getD, List.getElem?_map]
  cases l[k]? with
  | none => exact h.symm
  | some x => rfl

/-- C129: in every solution of the multi-phase control circuit, the comparator of control `off + i` compares, up to
the offset `mid`, entry `i` of what `control_observation` returns; it is clocked by `CLK` delayed by the start of
the impulse response of its control, and its outputs are the terminals of its control. -/
theorem C129_observation (ids : String → ℕ → String) (S : Analog.Sys ℝ) (off : ℕ) (mid : ℝ) (t0 : List ℝ)
    (GT : ℕ → ℕ → ℝ) (hG : S.GammaT = some GT) (hM : S.M - off = S.Mt) (hlen : S.M ≤ t0.length) :
    ∃ c ds, multiPhaseControl ids S off mid t0 = .ok (c, ds) ∧ ds.length = S.Mt ∧
      ∀ (law : Law) (sol : Sol),
        (∀ i D, ds[i]? = some D → ∀ v j, law (fmt "multi_input_comparator_" (off + i) "") v j →
          ObeysDef law D v j) →
        (∀ l ∈ c.netlist (Obj.name ids), Obeys law sol l) →
        ∀ i < S.Mt, ∃ v j, law "clocked_comparator" v j ∧
          (∀ t d, t0[off + i]? = some d → v 0 t = sol.v "CLK" (t - d)) ∧ v 4 = sol.v "VCM" ∧
          v 2 = sol.v (fmt "S" (off + i) "_P") ∧ v 3 = sol.v (fmt "S" (off + i) "_N") ∧
          ∀ t, ∃ y : Analog.Vec ℝ, S.controlObservation
            ⟨S.N, fun n => diff sol (fmt "X" n "_P") (fmt "X" n "_N") t⟩
            (some ⟨S.L, fun l => diff sol (fmt "IN" l "_P") (fmt "IN" l "_N") t⟩)
            (some ⟨S.M, fun m => diff sol (fmt "S" m "_P") (fmt "S" m "_N") t⟩) = .ok y ∧
            v 1 t = y.v i + mid := by
  obtain ⟨c, hc, hn⟩ := mp_ok ids S off mid t0 GT hG hM hlen
  refine ⟨c, _, hc, by simp [hM], ?_⟩
  intro law sol hlaw hob i hi
  have hl : law (fmt "multi_input_comparator_" (off + i) "")
      (fun k => sol.v (((controlPins S.N S.L S.M).map (MpPart.mic (off + i)).hubPin).getD k ""))
      (sol.i (fmt "Xmic_" (off + i) "")) := by
    refine hob ⟨fmt "Xmic_" (off + i) "", .sub (fmt "multi_input_comparator_" (off + i) ""),
      (controlPins S.N S.L S.M).map (MpPart.mic (off + i)).hubPin⟩ ?_
    rw [hn]
    exact List.mem_append_left _ (List.mem_map.mpr ⟨i, List.mem_range.mpr (by omega), rfl⟩)
  have hdl : Obeys law sol ⟨fmt "A_delay_" (off + i) "", .delay (t0.getD (off + i) 0),
      ["CLK", fmt "CLK_" (off + i) "", "VDD"]⟩ := by
    refine hob _ ?_
    rw [hn]
    exact List.mem_append_right _ (List.mem_map.mpr ⟨i, List.mem_range.mpr (by omega), rfl⟩)
  have hv : (fun k => sol.v (((controlPins S.N S.L S.M).map (MpPart.mic (off + i)).hubPin).getD k "")) =
      fun k => (fun s => sol.v ((MpPart.mic (off + i)).hubPin s)) ((controlPins S.N S.L S.M).getD k "") := by
    funext k
    dsimp only
    rw [getD_map _ _ _ rfl]
  rw [hv] at hl
  have hD := hlaw i (coDef S GT (off + i) i mid) (by simp [show i < S.M - off by omega]) _ _ hl
  obtain ⟨v, j, h1, h2, h3, h4, h5, h6⟩ := comparator_obeys law S GT (off + i) i (by omega) mid
    (fun s => sol.v ((MpPart.mic (off + i)).hubPin s)) _ hD
  have hs := fun n => fmt_ne_clk n
  have e : ∀ s, s ≠ "CLK" → (MpPart.mic (off + i)).hubPin s = s := fun s h => by
    rw [MpPart.hubPin, if_neg h]
  rw [e _ (hs _).2.2.2.2.1] at h4
  rw [e _ (hs _).2.2.2.2.2] at h5
  refine ⟨v, j, h1, ?_, h3, h4, h5, ?_⟩
  · intro t d hd
    rw [h2]
    have := (hdl t).1
    rw [List.getD_eq_getElem?_getD, hd] at this
    exact this
  · intro t
    refine ⟨_, by
      unfold Analog.Sys.controlObservation Analog.npDot
      rw [hG]
      dsimp only
      rw [if_neg (by simp), if_neg (by simp), if_neg (by simp)]
      rfl, ?_⟩
    rw [h6 t]
    simp only [e _ (hs _).1, e _ (hs _).2.1, e _ (hs _).2.2.1, e _ (hs _).2.2.2.1, e _ (hs _).2.2.2.2.1,
      e _ (hs _).2.2.2.2.2]
    rfl

theorem period_shift {hi : ℝ} {clk : ℝ → ℝ} {e f n : ℝ} (d : ℝ) (h : Period hi clk e f n) :
    Period hi (fun s => clk (s - d)) (e + d) (f + d) (n + d) := by
  obtain ⟨h1, h2, ⟨ε, hε, h3⟩, h4, h5⟩ := h
  refine ⟨by linarith, by linarith, ⟨ε, hε, fun s a b => h3 _ (by linarith) (by linarith)⟩,
    fun s a b => h4 _ (by linarith) (by linarith), fun s a b => h5 _ (by linarith) (by linarith)⟩

/-- C129: control `off + i` of the multi-phase control circuit is decided at the edges of the clock delayed by the
start `d` of its impulse response: it is positive from then on and until its next decision if entry `i` of the
control observation was above the upper threshold at that time, and negative if it was below the lower one. -/
theorem C129_control (ids : String → ℕ → String) (S : Analog.Sys ℝ) (off : ℕ) (mid : ℝ) (t0 : List ℝ)
    (GT : ℕ → ℕ → ℝ) (hG : S.GammaT = some GT) (hM : S.M - off = S.Mt) (hlen : S.M ≤ t0.length) :
    ∃ c ds D, multiPhaseControl ids S off mid t0 = .ok (c, ds) ∧ clockedComparator ids = .ok D ∧
      ∀ (law : Law) (sol : Sol) (p : Timing),
        (∀ i D, ds[i]? = some D → ∀ v j, law (fmt "multi_input_comparator_" (off + i) "") v j →
          ObeysDef law D v j) →
        (∀ v j, law "clocked_comparator" v j → ObeysMixed p D v) →
        (∀ l ∈ c.netlist (Obj.name ids), Obeys law sol l) →
        (∀ t, sol.v "VCM" t = mid) →
        ∀ y : ℝ → Analog.Vec ℝ, (∀ t, S.controlObservation
            ⟨S.N, fun n => diff sol (fmt "X" n "_P") (fmt "X" n "_N") t⟩
            (some ⟨S.L, fun l => diff sol (fmt "IN" l "_P") (fmt "IN" l "_N") t⟩)
            (some ⟨S.M, fun m => diff sol (fmt "S" m "_P") (fmt "S" m "_N") t⟩) = .ok (y t)) →
        ∀ e f n, Period p.hi (diff sol "CLK" "VCM") e f n → ∀ i < S.Mt, ∀ d, t0[off + i]? = some d →
          ∀ t, e + d + p.adc + p.dff + p.ramp < t → t ≤ n + d + p.adc + p.dff →
            (Around (e + d) (fun s => p.hi < (y s).v i) →
              diff sol (fmt "S" (off + i) "_P") (fmt "S" (off + i) "_N") t = p.high - p.low) ∧
            (Around (e + d) (fun s => (y s).v i < p.lo) →
              diff sol (fmt "S" (off + i) "_P") (fmt "S" (off + i) "_N") t = p.low - p.high) := by
  obtain ⟨c, ds, hc, -, hob⟩ := C129_observation ids S off mid t0 GT hG hM hlen
  obtain ⟨D, hD, -, hdec⟩ := C128_decides ids
  refine ⟨c, ds, D, hc, hD, ?_⟩
  intro law sol p hdefs hcomp hnet hvcm y hy e f n hper i hi d hd t ht1 ht2
  obtain ⟨v, j, hl, hv0, hv4, hv2, hv3, hin⟩ := hob law sol hdefs hnet i hi
  have hp : (fun s => v 0 s - v 4 s) = fun s => diff sol "CLK" "VCM" (s - d) := by
    funext s
    rw [hv0 s d hd, hv4]
    unfold diff
    rw [hvcm, hvcm]
  have hdc := hdec p v (hcomp v j hl) _ _ _ (hp ▸ period_shift d hper)
  have hyi : ∀ s, v 1 s - v 4 s = (y s).v i := by
    intro s
    obtain ⟨y', hy', hv1⟩ := hin s
    have : y' = y s := by
      have := hy'.symm.trans (hy s)
      injection this
    rw [hv1, hv4, hvcm, this, add_sub_cancel_right]
  simp only [hyi] at hdc
  unfold diff
  rw [← hv2, ← hv3]
  refine ⟨fun h => ?_, fun h => ?_⟩
  · obtain ⟨a, b⟩ := hdc.1 h t ht1 ht2
    rw [a, b]
  · obtain ⟨a, b⟩ := hdc.2 h t ht1 ht2
    rw [a, b]

/-- C129, which control is built: without a dither control, the one clocked by `CLK` or the one with delayed clocks,
depending on the starts of the impulse responses; both accept all of them. -/
theorem C129_choice_partial (ids : String → ℕ → String) (S : Analog.Sys ℝ) (mid : ℝ) (t0 : List ℝ)
    (hS : S.GammaT = none → S.Mt = 0) (hM : S.M = S.Mt) (hlen : t0.length = S.M) :
    ∃ r, nominalControl ids S 0 mid t0 = .ok r := by
  unfold nominalControl
  split_ifs
  · exact (C129_shape ids S 0 mid t0 hS).mpr ⟨by omega, fun _ => hlen.ge⟩
  · exact (C94_shape ids S 0 mid hS).mpr (by omega)

/-- With `R` dither controls the impulse responses of the remaining controls, `M - R` of them, are looked up under
the numbers `R`, ..., `M - 1`: as soon as one of them starts later than zero no circuit can be built. -/
theorem C129_dither_false (ids : String → ℕ → String) (S : Analog.Sys ℝ) (R : ℕ) (mid : ℝ) (t0 : List ℝ)
    (GT : ℕ → ℕ → ℝ) (hG : S.GammaT = some GT) (hM : S.M - R = S.Mt) (hR : 0 < R) (hlen : t0.length = S.M - R)
    (hpos : 0 < t0.sum) : nominalControl ids S R mid t0 = .error .indexError := by
  have hlt : R < S.M := by
    by_contra h
    have : t0 = [] := List.eq_nil_of_length_eq_zero (by omega)
    rw [this] at hpos
    simp at hpos
  unfold nominalControl multiPhaseControl
  rw [if_pos hpos, mapM_ok _ _ (fun i => coDef S GT (R + i) i mid)
    (fun i hi => co_def ids S _ _ mid GT hG (by rw [List.mem_range] at hi; omega))]
  dsimp only
  rw [if_pos ⟨S.M - R - 1, by omega, by omega⟩]

/-! ## Cases -/

/-- Potentials with delayed clocks at which the comparators do what `P` asks for belong to a solution. -/
theorem mp_realisable (ids : String → ℕ → String) (S : Analog.Sys ℝ) (off : ℕ) (mid : ℝ) (t0 : List ℝ)
    (GT : ℕ → ℕ → ℝ) (hG : S.GammaT = some GT) (hM : S.M - off = S.Mt) (hlen : S.M ≤ t0.length)
    (pot : String → ℝ → ℝ) (hclk : ∀ i < S.Mt, ∀ t, pot (fmt "CLK_" (off + i) "") t = pot "CLK" (t - t0.getD (off + i) 0))
    (P : (ℕ → ℝ → ℝ) → Prop)
    (hP : ∀ i < S.Mt, P fun k => Function.update (fun s => pot ((MpPart.mic (off + i)).hubPin s)) "STILDE"
      (summed S GT mid (fun s => pot ((MpPart.mic (off + i)).hubPin s)) i)
      (["CLK", "STILDE", fmt "S" (off + i) "_P", fmt "S" (off + i) "_N", "VCM"].getD k "")) :
    ∃ c ds, multiPhaseControl ids S off mid t0 = .ok (c, ds) ∧ ∃ (law : Law) (sol : Sol), sol.v = pot ∧
      (∀ v j, law "clocked_comparator" v j ↔ P v) ∧
      (∀ i D, ds[i]? = some D → ∀ v j, law (fmt "multi_input_comparator_" (off + i) "") v j →
        ObeysDef law D v j) ∧
      ∀ l ∈ c.netlist (Obj.name ids), Obeys law sol l := by
  obtain ⟨c, hc, hn⟩ := mp_ok ids S off mid t0 GT hG hM hlen
  refine ⟨c, _, hc, fun name v j => (name = "clocked_comparator" ∧ P v) ∨ ∃ i < S.M - off,
    name = fmt "multi_input_comparator_" (off + i) "" ∧
      ObeysDef (fun _ v _ => P v) (coDef S GT (off + i) i mid) v j, ⟨pot, fun _ _ _ => 0⟩, rfl, ?_, ?_, ?_⟩
  · intro v j
    constructor
    · rintro (⟨-, h⟩ | ⟨i, -, h, -⟩)
      · exact h
      · names at h
    · exact fun h => Or.inl ⟨rfl, h⟩
  · intro i D hD v j hl
    rw [List.getElem?_map] at hD
    obtain ⟨i', hi', rfl⟩ := Option.map_eq_some_iff.mp hD
    obtain rfl : i' = i := by
      rw [List.getElem?_eq_some_iff] at hi'
      obtain ⟨h, e⟩ := hi'
      rw [List.getElem_range] at e
      exact e.symm
    rcases hl with ⟨h, -⟩ | ⟨i, hi, h, so, ho, hp⟩
    · names at h
    · names at h
      subst h
      refine ⟨so, ?_, hp⟩
      intro l hl
      have := ho l hl
      simp only [coDef, List.mem_cons, List.not_mem_nil, or_false] at hl
      rcases hl with rfl | rfl
      · exact this
      · exact Or.inl ⟨rfl, this⟩
  · intro l hl
    rw [hn] at hl
    rcases List.mem_append.mp hl with hl | hl
    · obtain ⟨i, hi, rfl⟩ := List.mem_map.mp hl
      have hi := List.mem_range.mp hi
      refine Or.inr ⟨i, hi, rfl, ?_⟩
      have hv : (fun k => pot (((controlPins S.N S.L S.M).map (MpPart.mic (off + i)).hubPin).getD k "")) =
          fun k => (fun s => pot ((MpPart.mic (off + i)).hubPin s)) ((controlPins S.N S.L S.M).getD k "") := by
        funext k
        dsimp only
        rw [getD_map _ _ _ rfl]
      have := comparator_real S GT (off + i) i mid (fun s => pot ((MpPart.mic (off + i)).hubPin s)) P
        (hP i (by omega))
      exact hv ▸ this
    · obtain ⟨i, hi, rfl⟩ := List.mem_map.mp hl
      have hi := List.mem_range.mp hi
      intro t
      exact ⟨hclk i (by omega) t, rfl, rfl⟩

/-- The potentials of the case of C128, with a clock that comes two seconds earlier and is delayed by as much. -/
noncomputable def phaseEx : String → ℝ → ℝ := fun s t =>
  if s = "CLK" then circEx "CLK" (t + 2) else if s = "CLK_0" then circEx "CLK" t else circEx s t

theorem phaseEx_comparator : ∀ i < sysEx.Mt, ObeysMixed timingEx clockedDef fun k =>
    Function.update (fun s => phaseEx ((MpPart.mic (0 + i)).hubPin s)) "STILDE"
      (summed sysEx (fun _ _ => 1) 0 (fun s => phaseEx ((MpPart.mic (0 + i)).hubPin s)) i)
      (["CLK", "STILDE", fmt "S" (0 + i) "_P", fmt "S" (0 + i) "_N", "VCM"].getD k "") := by
  intro i hi
  obtain rfl : i = 0 := by
    have : i < 1 := hi
    omega
  obtain ⟨pot, h1, h2⟩ := potEx_obeys
  refine ⟨pot, h1, ?_⟩
  intro k hk
  rw [h2 k hk]
  have hk' : k < 5 := hk
  have hc : fmt "CLK_" (0 + 0) "" = "CLK_0" := by decide +kernel
  have hp : fmt "X" 0 "_P" = "X0_P" := by decide +kernel
  have hn : fmt "X" 0 "_N" = "X0_N" := by decide +kernel
  have hs : summed sysEx (fun _ _ => 1) 0 (fun s => phaseEx ((MpPart.mic (0 + 0)).hubPin s)) 0 = potEx "IN" := by
    funext t
    simp [summed, sysEx, hp, hn, phaseEx, MpPart.hubPin, circEx, potEx]
  have hp : fmt "S" (0 + 0) "_P" = "S0_P" := by decide +kernel
  have hn : fmt "S" (0 + 0) "_N" = "S0_N" := by decide +kernel
  rw [hs, hp, hn]
  funext t
  interval_cases k <;> simp [comparatorPins, phaseEx, MpPart.hubPin, hc, circEx, potEx]

/-- The hypotheses of `C129_control` are met by these potentials: the edge at minus two, delayed by two, makes the
control positive. -/
example : ∀ t, 3 < t → t ≤ 10 → phaseEx "S0_P" t - phaseEx "S0_N" t = 2 := by
  intro t ht1 ht2
  have hc0 : fmt "CLK_" (0 + 0) "" = "CLK_0" := by decide +kernel
  obtain ⟨c, ds, hc, law, sol, hv, hl, hd, hn⟩ := mp_realisable (fun _ _ => "") sysEx 0 0 [2] (fun _ _ => 1) rfl rfl
    le_rfl phaseEx (by
      intro i hi t
      obtain rfl : i = 0 := by
        have : i < 1 := hi
        omega
      rw [hc0]
      simp [phaseEx]) (ObeysMixed timingEx clockedDef) phaseEx_comparator
  obtain ⟨c', ds', D, hc', hD, h⟩ := C129_control (fun _ _ => "") sysEx 0 0 [2] (fun _ _ => 1) rfl rfl le_rfl
  obtain ⟨rfl, rfl⟩ : c = c' ∧ ds = ds' := by
    have := hc.symm.trans hc'
    injection this with this
    injection this with a b
    exact ⟨a, b⟩
  obtain rfl : D = clockedDef := by
    have := hD.symm.trans (clocked_def _)
    injection this
  have hp : fmt "S" (0 + 0) "_P" = "S0_P" := by decide +kernel
  have hm : fmt "S" (0 + 0) "_N" = "S0_N" := by decide +kernel
  have hxp : fmt "X" 0 "_P" = "X0_P" := by decide +kernel
  have hxn : fmt "X" 0 "_N" = "X0_N" := by decide +kernel
  have := (h law sol timingEx hd (fun v j hlv => (hl v j).mp hlv) hn (fun t => by simp [hv, phaseEx, circEx])
    _ (fun _ => rfl) (-2) 6 6 ⟨by norm_num, le_rfl, ⟨1, one_pos, ?_⟩, ?_, ?_⟩ 0 one_pos 2 rfl t
    (by norm_num [timingEx]; linarith) (by norm_num [timingEx]; linarith)).1 ⟨1, one_pos, ?_⟩
  · rw [hp, hm, diff, hv] at this
    rw [this]
    norm_num [timingEx]
  · intro s _ hs
    simp only [diff, hv, phaseEx, circEx, potEx, timingEx, String.reduceEq, if_true, if_false]
    rw [if_pos (by linarith)]
    norm_num
  · intro s hs _
    simp only [diff, hv, phaseEx, circEx, potEx, timingEx, String.reduceEq, if_true, if_false]
    rw [if_neg (by linarith)]
    norm_num
  · intro s h1 h2
    linarith
  · intro s _ _
    simp [sysEx, diff, hv, Analog.npAdd, Analog.dot, hxp, hxn, phaseEx, circEx, timingEx]

/-- `C129_shape`, `C129_observation`:
Two controls, the second one half a second later, without dither; and the same with a third, random, control:
the conditions of `C129_choice_partial` and of `C129_dither_false`. -/
example :
    (∃ r, nominalControl (fun e k => fmt e k "")
      (⟨2, 1, 2, 2, 2, fun _ _ => 0, fun _ _ => 1, fun _ _ => 1, some fun _ _ => 1,
        some fun m n => if m = n then 1 else 0, fun _ _ => 0, fun _ _ => 0, fun _ _ => 0⟩ : Analog.Sys ℝ)
      0 (1 / 2) [0, 1 / 2] = .ok r) ∧
    nominalControl (fun e k => fmt e k "")
      (⟨2, 1, 3, 2, 2, fun _ _ => 0, fun _ _ => 1, fun _ _ => 1, some fun _ _ => 1,
        some fun m n => if m = n then 1 else 0, fun _ _ => 0, fun _ _ => 0, fun _ _ => 0⟩ : Analog.Sys ℝ)
      1 (1 / 2) [0, 1 / 2] = .error .indexError :=
  ⟨C129_choice_partial _ _ _ _ (by simp) rfl rfl, C129_dither_false _ _ _ _ _ _ rfl rfl one_pos rfl (by norm_num)⟩

end Cbadc.Circuit
