import Verif.Model.LC
import Verif.Lemmas.GmC

/-! # The netlist of the LC frontend -/

namespace Cbadc.Circuit

open Spec

/-- The parts of the LC frontend. -/
inductive LcPart
  | ctl
  | ind (p : Bool) (n : ℕ)
  | cap (n : ℕ)
  | res (p : Bool)
  | gm (p : Bool) (n : ℕ)

/-- The instance names. -/
def LcPart.inst : LcPart → String
  | .ctl => "Xdc"
  | .ind true n => fmt "Lp_" n ""
  | .ind false n => fmt "Ln_" n ""
  | .cap n => fmt "C_" n ""
  | .res true => "Rin_p"
  | .res false => "Rin_n"
  | .gm true n => fmt "Ggm" n "_p"
  | .gm false n => fmt "Ggm" n "_n"

theorem LcPart.inst_inj : Function.Injective LcPart.inst := by
  intro x y h
  rcases x with _ | ⟨p1, n1⟩ | n1 | p1 | ⟨p1, n1⟩ <;> rcases y with _ | ⟨p2, n2⟩ | n2 | p2 | ⟨p2, n2⟩ <;>
    (try cases p1) <;> (try cases p2) <;> simp only [LcPart.inst] at h <;>
    first
      | rfl
      | (names at h; done)
      | (names at h; rw [h])

/-- The hub of a named pin. -/
def LcPart.hubPin : LcPart → String → String
  | .gm p n, s =>
    if s = "OUT_P" then (if p then "VDD" else fmt "X" n "_N")
    else if s = "OUT_N" then (if p then fmt "X" n "_P" else "VSS")
    else if s = "IN_P" then fmt "OUT" n "_P" else if s = "IN_N" then fmt "OUT" n "_N" else s
  | _, s => OaPart.ctl.hubPin s

/-- The hub of a numbered terminal. -/
def LcPart.hubNum : LcPart → ℕ → String
  | .ind p n, 0 => fmt "X" n (sfx p)
  | .ind p n, _ => fmt "X" (n + 1) (sfx p)
  | .cap n, 0 => fmt "X" n "_P"
  | .cap n, _ => fmt "X" n "_N"
  | .res p, 0 => fmt "IN" 0 (sfx p)
  | .res p, _ => fmt "X" 0 (sfx p)
  | _, _ => "?"

/-- A connection to the right hub. -/
def LcConn (c : Obj × Obj) : Prop :=
  (∃ (q : LcPart) (s : String), c = (.own (q.hubPin s), .pin q.inst s)) ∨
    ∃ (q : LcPart) (k : ℕ), c = (.own (q.hubNum k), .num q.inst k)

section

variable {K : Type*} [Field K] [LinearOrder K]

omit [Field K] [LinearOrder K] in
theorem control_lc (N L M : ℕ) :
    ∀ c ∈ conns (controlOps "OUT" N L M : List (Op Obj K)), LcConn c ∧ ∃ s, c.1 = .own s ∧ s ≠ "" := by
  intro c hc
  simp only [controlOps, List.map_cons, List.map_nil, List.cons_append, List.nil_append,
    conns, conns_append, conns_flatMap, List.mem_cons, List.mem_append, List.mem_flatMap,
    List.mem_range, List.not_mem_nil, or_false] at hc
  rcases hc with rfl | rfl | rfl | rfl | ((⟨n, hn, rfl | rfl⟩) | ⟨n, hn, rfl | rfl⟩) |
    ⟨n, hn, rfl | rfl⟩
  · exact ⟨Or.inl ⟨.ctl, "VSS", rfl⟩, _, rfl, by decide⟩
  · exact ⟨Or.inl ⟨.ctl, "VDD", rfl⟩, _, rfl, by decide⟩
  · exact ⟨Or.inl ⟨.ctl, "CLK", rfl⟩, _, rfl, by decide⟩
  · exact ⟨Or.inl ⟨.ctl, "VCM", rfl⟩, _, rfl, by decide⟩
  · exact ⟨Or.inl ⟨.ctl, fmt "X" n "_P", by change _ = (Obj.own (OaPart.ctl.hubPin _), _); rw [hubPin_x]; rfl⟩, _, rfl,
      fmt_ne_empty _ _ _ (by decide)⟩
  · exact ⟨Or.inl ⟨.ctl, fmt "X" n "_N", by change _ = (Obj.own (OaPart.ctl.hubPin _), _); rw [hubPin_x]; rfl⟩, _, rfl,
      fmt_ne_empty _ _ _ (by decide)⟩
  · exact ⟨Or.inl ⟨.ctl, fmt "IN" n "_P", by change _ = (Obj.own (OaPart.ctl.hubPin _), _); rw [hubPin_in]; rfl⟩, _, rfl,
      fmt_ne_empty _ _ _ (by decide)⟩
  · exact ⟨Or.inl ⟨.ctl, fmt "IN" n "_N", by change _ = (Obj.own (OaPart.ctl.hubPin _), _); rw [hubPin_in]; rfl⟩, _, rfl,
      fmt_ne_empty _ _ _ (by decide)⟩
  · exact ⟨Or.inl ⟨.ctl, fmt "S" n "_P", by change _ = (Obj.own (OaPart.ctl.hubPin _), _); rw [hubPin_s]; rfl⟩, _, rfl,
      fmt_ne_empty _ _ _ (by decide)⟩
  · exact ⟨Or.inl ⟨.ctl, fmt "S" n "_N", by change _ = (Obj.own (OaPart.ctl.hubPin _), _); rw [hubPin_s]; rfl⟩, _, rfl,
      fmt_ne_empty _ _ _ (by decide)⟩

omit [Field K] [LinearOrder K] in
theorem round_lc (m : ℕ) :
    ∀ c ∈ conns (lcRound m : List (Op Obj K)), LcConn c ∧ ∃ s, c.1 = .own s ∧ s ≠ "" := by
  intro c hc
  unfold lcRound at hc
  rw [conns_append, List.mem_append] at hc
  rcases hc with hc | hc
  · simp only [conns, List.mem_cons, List.not_mem_nil, or_false] at hc
    rcases hc with rfl | rfl | rfl | rfl | rfl | rfl | rfl | rfl | rfl | rfl | rfl | rfl | rfl | rfl
    · exact ⟨Or.inl ⟨.gm true m, "VDD", rfl⟩, _, rfl, by decide⟩
    · exact ⟨Or.inl ⟨.gm true m, "VSS", rfl⟩, _, rfl, by decide⟩
    · exact ⟨Or.inl ⟨.gm true m, "OUT_P", rfl⟩, _, rfl, by decide⟩
    · exact ⟨Or.inl ⟨.gm true m, "OUT_N", rfl⟩, _, rfl, fmt_ne_empty _ _ _ (by decide)⟩
    · exact ⟨Or.inl ⟨.gm true m, "IN_P", rfl⟩, _, rfl, fmt_ne_empty _ _ _ (by decide)⟩
    · exact ⟨Or.inl ⟨.gm true m, "IN_N", rfl⟩, _, rfl, fmt_ne_empty _ _ _ (by decide)⟩
    · exact ⟨Or.inl ⟨.gm false m, "VDD", rfl⟩, _, rfl, by decide⟩
    · exact ⟨Or.inl ⟨.gm false m, "VSS", rfl⟩, _, rfl, by decide⟩
    · exact ⟨Or.inl ⟨.gm false m, "OUT_N", rfl⟩, _, rfl, by decide⟩
    · exact ⟨Or.inl ⟨.gm false m, "OUT_P", rfl⟩, _, rfl, fmt_ne_empty _ _ _ (by decide)⟩
    · exact ⟨Or.inl ⟨.gm false m, "IN_P", rfl⟩, _, rfl, fmt_ne_empty _ _ _ (by decide)⟩
    · exact ⟨Or.inl ⟨.gm false m, "IN_N", rfl⟩, _, rfl, fmt_ne_empty _ _ _ (by decide)⟩
    · exact ⟨Or.inr ⟨.cap m, 0, rfl⟩, _, rfl, fmt_ne_empty _ _ _ (by decide)⟩
    · exact ⟨Or.inr ⟨.cap m, 1, rfl⟩, _, rfl, fmt_ne_empty _ _ _ (by decide)⟩
  · by_cases h0 : m = 0
    · subst h0
      rw [if_pos rfl] at hc
      simp only [conns, List.mem_cons, List.not_mem_nil, or_false] at hc
      rcases hc with rfl | rfl | rfl | rfl
      · exact ⟨Or.inr ⟨.res true, 1, rfl⟩, _, rfl, fmt_ne_empty _ _ _ (by decide)⟩
      · exact ⟨Or.inr ⟨.res false, 1, rfl⟩, _, rfl, fmt_ne_empty _ _ _ (by decide)⟩
      · exact ⟨Or.inr ⟨.res true, 0, rfl⟩, _, rfl, fmt_ne_empty _ _ _ (by decide)⟩
      · exact ⟨Or.inr ⟨.res false, 0, rfl⟩, _, rfl, fmt_ne_empty _ _ _ (by decide)⟩
    · obtain ⟨n, rfl⟩ := Nat.exists_eq_succ_of_ne_zero h0
      rw [if_neg h0] at hc
      simp only [conns, List.mem_cons, List.not_mem_nil, or_false, Nat.succ_eq_add_one,
        Nat.add_sub_cancel] at hc
      rcases hc with rfl | rfl | rfl | rfl
      · exact ⟨Or.inr ⟨.ind true n, 0, rfl⟩, _, rfl, fmt_ne_empty _ _ _ (by decide)⟩
      · exact ⟨Or.inr ⟨.ind true n, 1, rfl⟩, _, rfl, fmt_ne_empty _ _ _ (by decide)⟩
      · exact ⟨Or.inr ⟨.ind false n, 0, rfl⟩, _, rfl, fmt_ne_empty _ _ _ (by decide)⟩
      · exact ⟨Or.inr ⟨.ind false n, 1, rfl⟩, _, rfl, fmt_ne_empty _ _ _ (by decide)⟩

omit [Field K] [LinearOrder K] in
theorem round_parts (m : ℕ) : parts (lcRound m : List (Op Obj K)) = [] := by
  unfold lcRound
  by_cases h0 : m = 0
  · simp [h0, parts]
  · simp [h0, parts]

/-- The netlist of the LC frontend. -/
def lcNet (M : ℕ) (L C Rin : K) (gain : ℕ → K) : List (Line K) :=
  [⟨"Xdc", .sub "digital_control", (controlPins M 1 M).map OaPart.ctl.hubPin⟩]
    ++ ((List.range (M - 1)).map fun i => ⟨fmt "Lp_" i "", .ind L, [fmt "X" i "_P", fmt "X" (i + 1) "_P"]⟩)
    ++ ((List.range (M - 1)).map fun i => ⟨fmt "Ln_" i "", .ind L, [fmt "X" i "_N", fmt "X" (i + 1) "_N"]⟩)
    ++ ((List.range M).map fun i => ⟨fmt "C_" i "", .cap C, [fmt "X" i "_P", fmt "X" i "_N"]⟩)
    ++ [⟨"Rin_p", .res Rin, [fmt "IN" 0 "_P", fmt "X" 0 "_P"]⟩,
        ⟨"Rin_n", .res Rin, [fmt "IN" 0 "_N", fmt "X" 0 "_N"]⟩]
    ++ ((List.range M).map fun m => ⟨fmt "Ggm" m "_p", .vccs |gain m * C / 2|,
        ["VDD", fmt "X" m "_P", fmt "OUT" m "_P", fmt "OUT" m "_N"]⟩)
    ++ ((List.range M).map fun m => ⟨fmt "Ggm" m "_n", .vccs |gain m * C / 2|,
        [fmt "X" m "_N", "VSS", fmt "OUT" m "_P", fmt "OUT" m "_N"]⟩)

theorem lc_parts (M : ℕ) (L C Rin : K) (gain : ℕ → K) : parts (lcOps M L C Rin gain) =
    [⟨"Xdc", .sub "digital_control", (controlPins M 1 M).map (.pin "Xdc")⟩]
    ++ ((List.range (M - 1)).map fun i => ⟨fmt "Lp_" i "", .ind L, twoPin (fmt "Lp_" i "")⟩)
    ++ ((List.range (M - 1)).map fun i => ⟨fmt "Ln_" i "", .ind L, twoPin (fmt "Ln_" i "")⟩)
    ++ ((List.range M).map fun i => ⟨fmt "C_" i "", .cap C, twoPin (fmt "C_" i "")⟩)
    ++ [⟨"Rin_p", .res Rin, twoPin "Rin_p"⟩, ⟨"Rin_n", .res Rin, twoPin "Rin_n"⟩]
    ++ ((List.range M).map fun m => lcOta "_p" gain C m)
    ++ ((List.range M).map fun m => lcOta "_n" gain C m) := by
  unfold lcOps
  simp only [parts_append, control_parts, parts_map_add, parts_flatMap, round_parts, flatMap_none,
    List.append_nil, parts]

/-- The parts, in order. -/
def lcParts (M : ℕ) : List LcPart :=
  [.ctl] ++ (List.range (M - 1)).map (.ind true) ++ (List.range (M - 1)).map (.ind false)
    ++ (List.range M).map .cap ++ [.res true, .res false] ++ (List.range M).map (.gm true)
    ++ (List.range M).map (.gm false)

theorem lc_insts (M : ℕ) (L C Rin : K) (gain : ℕ → K) :
    (parts (lcOps M L C Rin gain)).map Part.inst = (lcParts M).map LcPart.inst := by
  rw [lc_parts]
  unfold lcParts
  simp only [List.map_append, List.map_map, List.map_cons, List.map_nil]
  rfl

theorem lcParts_nodup (M : ℕ) : (lcParts M).Nodup := by
  unfold lcParts
  simp only [List.nodup_append, List.mem_append, List.mem_map, List.mem_range, List.mem_cons,
    List.not_mem_nil, or_false]
  refine ⟨⟨⟨⟨⟨⟨List.nodup_singleton _, ?_, ?_⟩, ?_, ?_⟩, ?_, ?_⟩, by simp, ?_⟩, ?_, ?_⟩, ?_, ?_⟩
  all_goals first
    | exact List.nodup_range.map (fun a b h => by simpa using h)
    | (intro a ha b hb e
       subst e
       aesop)

theorem lc_conns (M : ℕ) (L C Rin : K) (gain : ℕ → K) :
    ∀ c ∈ conns (lcOps M L C Rin gain), LcConn c ∧ ∃ s, c.1 = .own s ∧ s ≠ "" := by
  intro c hc
  unfold lcOps at hc
  simp only [conns_append, conns_map_add, conns, conns_flatMap, List.append_nil, List.mem_append,
    List.mem_flatMap] at hc
  rcases hc with hc | ⟨m, _, hc⟩
  · exact control_lc M 1 M c hc
  · exact round_lc m c hc

/-- The constructor prints the expected netlist. -/
theorem lc_netlist (ids : String → ℕ → String) (M : ℕ) (hM : M ≠ 0) (L C Rin : K) (gain : ℕ → K) :
    ∃ s, Sub.run (Obj.name ids) (lcOps M L C Rin gain) .empty = .ok s ∧
      s.netlist (Obj.name ids) = lcNet M L C Rin gain ∧ (s.parts.map Part.inst).Nodup := by
  have hnd : ((Sub.empty.parts ++ parts (lcOps M L C Rin gain)).map Part.inst).Nodup := by
    change ((parts (lcOps M L C Rin gain)).map Part.inst).Nodup
    rw [lc_insts]
    exact (lcParts_nodup M).map LcPart.inst_inj
  refine ⟨⟨parts (lcOps M L C Rin gain), Wires.connects (Obj.name ids) (conns (lcOps M L C Rin gain)) .empty⟩,
    run_eq (Obj.name ids) (lcOps M L C Rin gain) .empty hnd, ?_, hnd⟩
  have hc := lc_conns M L C Rin gain
  obtain ⟨w, hw⟩ : ∃ w, w = Wires.connects (Obj.name ids) (conns (lcOps M L C Rin gain)) .empty := ⟨_, rfl⟩
  have node : ∀ c ∈ conns (lcOps M L C Rin gain), w.node (Obj.name ids) c.2 = c.1.name ids := by
    intro c hcm
    rw [hw]
    refine (hub_node LcPart.inst_inj LcPart.hubPin LcPart.hubNum ids _ (fun c h => (hc c h).1) ?_ c hcm).2
    intro d hd
    obtain ⟨s, h1, h2⟩ := (hc d hd).2
    rw [h1]
    exact h2
  rw [← hw]
  have hctl : ∀ s ∈ controlPins M 1 M, w.node (Obj.name ids) (.pin "Xdc" s) = OaPart.ctl.hubPin s := by
    intro s hs
    apply node (.own (OaPart.ctl.hubPin s), .pin "Xdc" s)
    unfold lcOps
    simp only [conns_append, List.mem_append]
    exact Or.inl (Or.inl (Or.inl (Or.inl (Or.inl (Or.inl (Or.inl (control_mem M 1 M s hs)))))))
  have hrd : ∀ m < M, ∀ c ∈ conns (lcRound m : List (Op Obj K)), w.node (Obj.name ids) c.2 = c.1.name ids := by
    intro m hm c hcc
    apply node
    unfold lcOps
    simp only [conns_append, List.mem_append, conns_flatMap]
    exact Or.inr (List.mem_flatMap.mpr ⟨m, List.mem_range.mpr hm, hcc⟩)
  unfold Sub.netlist
  dsimp only
  rw [lc_parts]
  unfold lcNet
  simp only [List.map_append, List.map_map, List.map_cons, List.map_nil]
  have first : ∀ m < M, ∀ c ∈ conns [(.conn (.own "VDD") (.pin (fmt "Ggm" m "_p") "VDD") : Op Obj K),
      .conn (.own "VSS") (.pin (fmt "Ggm" m "_p") "VSS"), .conn (.own "VDD") (.pin (fmt "Ggm" m "_p") "OUT_P"),
      .conn (.own (fmt "X" m "_P")) (.pin (fmt "Ggm" m "_p") "OUT_N"),
      .conn (.own (fmt "OUT" m "_P")) (.pin (fmt "Ggm" m "_p") "IN_P"),
      .conn (.own (fmt "OUT" m "_N")) (.pin (fmt "Ggm" m "_p") "IN_N"),
      .conn (.own "VDD") (.pin (fmt "Ggm" m "_n") "VDD"), .conn (.own "VSS") (.pin (fmt "Ggm" m "_n") "VSS"),
      .conn (.own "VSS") (.pin (fmt "Ggm" m "_n") "OUT_N"),
      .conn (.own (fmt "X" m "_N")) (.pin (fmt "Ggm" m "_n") "OUT_P"),
      .conn (.own (fmt "OUT" m "_P")) (.pin (fmt "Ggm" m "_n") "IN_P"),
      .conn (.own (fmt "OUT" m "_N")) (.pin (fmt "Ggm" m "_n") "IN_N"),
      .conn (.own (fmt "X" m "_P")) (.num (fmt "C_" m "") 0),
      .conn (.own (fmt "X" m "_N")) (.num (fmt "C_" m "") 1)], w.node (Obj.name ids) c.2 = c.1.name ids := by
    intro m hm c hcc
    apply hrd m hm
    unfold lcRound
    rw [conns_append]
    exact List.mem_append_left _ hcc
  have second : 0 < M → ∀ c ∈ ([(.own (fmt "X" 0 "_P"), .num "Rin_p" 1), (.own (fmt "X" 0 "_N"), .num "Rin_n" 1),
      (.own (fmt "IN" 0 "_P"), .num "Rin_p" 0), (.own (fmt "IN" 0 "_N"), .num "Rin_n" 0)] : List (Obj × Obj)),
      w.node (Obj.name ids) c.2 = c.1.name ids := by
    intro hm c hcc
    apply hrd 0 hm
    unfold lcRound
    rw [conns_append, List.mem_append, if_pos rfl]
    right
    exact hcc
  have third : ∀ n < M - 1, ∀ c ∈ ([(.own (fmt "X" n "_P"), .num (fmt "Lp_" n "") 0),
      (.own (fmt "X" (n + 1) "_P"), .num (fmt "Lp_" n "") 1),
      (.own (fmt "X" n "_N"), .num (fmt "Ln_" n "") 0),
      (.own (fmt "X" (n + 1) "_N"), .num (fmt "Ln_" n "") 1)] : List (Obj × Obj)),
      w.node (Obj.name ids) c.2 = c.1.name ids := by
    intro n hn c hcc
    apply hrd (n + 1) (by omega)
    unfold lcRound
    rw [conns_append, List.mem_append, if_neg (by omega)]
    right
    exact hcc
  simp only [conns, List.forall_mem_cons, Obj.name] at first second third
  obtain ⟨r1, r2, r3, r4, _⟩ := second (by omega)
  congr 1
  · congr 1
    · congr 1
      · congr 1
        · congr 1
          · congr 1
            · simp only [Part.line, nodeOrder, List.map_map]
              congr 2
              exact List.map_congr_left hctl
            · apply map_congr_range
              intro n hn
              obtain ⟨a1, a2, a3, a4, _⟩ := third n hn
              simp [Part.line, nodeOrder, twoPin, a1, a2]
          · apply map_congr_range
            intro n hn
            obtain ⟨a1, a2, a3, a4, _⟩ := third n hn
            simp [Part.line, nodeOrder, twoPin, a3, a4]
        · apply map_congr_range
          intro n hn
          obtain ⟨_, _, _, _, _, _, _, _, _, _, _, _, c1, c2, _⟩ := first n hn
          simp [Part.line, nodeOrder, twoPin, c1, c2]
      · simp [Part.line, nodeOrder, twoPin, r1, r2, r3, r4]
    · apply map_congr_range
      intro n hn
      obtain ⟨_, _, a1, a2, a3, a4, _⟩ := first n hn
      simp [Part.line, lcOta, nodeOrder, otaPins, a1, a2, a3, a4]
  · apply map_congr_range
    intro n hn
    obtain ⟨_, _, _, _, _, _, _, _, a1, a2, a3, a4, _⟩ := first n hn
    simp [Part.line, lcOta, nodeOrder, otaPins, a1, a2, a3, a4]

end

end Cbadc.Circuit
