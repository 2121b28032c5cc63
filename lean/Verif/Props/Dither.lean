import Verif.Props.GmC

/-! # C91: the dither control circuit -/

namespace Cbadc.Circuit

open Spec

/-- The parts of the dither control. -/
inductive DiPart
  | ctl
  | src
  | adc
  | dff (m : ℕ)
  | dac (p : Bool) (m : ℕ)

def DiPart.inst : DiPart → String
  | .ctl => "Xdc"
  | .src => "Ars"
  | .adc => "Aclk_adc"
  | .dff m => fmt "Adffp_" m ""
  | .dac true m => fmt "Adac_p_" m ""
  | .dac false m => fmt "Adac_n_" m ""

/-- The terminal to which a pin is attached. -/
def DiPart.hub : DiPart → String → Obj
  | .ctl, s => .own s
  | .src, s => .own ("R" ++ s)
  | .adc, _ => .own "CLK"
  | .dff m, s => if s = "IN" then .own (fmt "RS_" m "") else .pin "Aclk_adc" "OUT"
  | .dac true m, s => if s = "IN" then .pin (fmt "Adffp_" m "") "F_OUT_P" else .own (fmt "S" m "_P")
  | .dac false m, s => if s = "IN" then .pin (fmt "Adffp_" m "") "F_OUT_N" else .own (fmt "S" m "_N")

/-- The pins that are attached to another terminal (the other pins are hubs or not connected). -/
def DiPart.ok : DiPart → String → Prop
  | .adc, s => s = "IN"
  | .dff _, s => s = "IN" ∨ s = "CLK"
  | _, _ => True

theorem di_inj : Function.Injective DiPart.inst := by
  intro a b h
  unfold DiPart.inst at h
  rcases a with _ | _ | _ | m | ⟨_ | _, m⟩ <;> rcases b with _ | _ | _ | m' | ⟨_ | _, m'⟩ <;>
    first
      | rfl
      | (dsimp only at h; names at h; done)
      | (dsimp only at h; names at h; subst h; rfl)

def DiConn (c : Obj × Obj) : Prop := ∃ q s, c = (DiPart.hub q s, .pin q.inst s) ∧ q.ok s

theorem rs_name (m : ℕ) : "R" ++ fmt "S_" m "" = fmt "RS_" m "" := by
  unfold fmt
  rw [← String.append_assoc]
  rfl

variable {K : Type*} [Field K] [LinearOrder K]

omit [Field K] [LinearOrder K] in
theorem di_conns (N L M R : ℕ) : ∀ c ∈ conns (ditherControlOps N L M R : List (Op Obj K)),
    DiConn c ∧ ∀ ids, c.1.name ids ≠ "" := by
  intro c hc
  unfold ditherControlOps at hc
  rw [conns_append, List.mem_append] at hc
  rcases hc with hc | hc
  · simp only [controlOps, List.map_cons, List.map_nil, List.cons_append, List.nil_append,
      conns, conns_append, conns_flatMap, List.mem_cons, List.mem_append, List.mem_flatMap,
      List.mem_range, List.not_mem_nil, or_false] at hc
    rcases hc with rfl | rfl | rfl | rfl | (⟨n, hn, rfl | rfl⟩ | ⟨n, hn, rfl | rfl⟩) | ⟨n, hn, rfl | rfl⟩
    all_goals
      refine ⟨⟨.ctl, _, rfl, trivial⟩, ?_⟩
      intro ids
      unfold Obj.name
      dsimp only
      first | decide | exact fmt_ne_empty _ _ _ (by decide)
  · simp only [ditherOps, List.cons_append, List.nil_append, List.append_assoc,
      conns, conns_append, conns_flatMap, conns_map_add, List.mem_cons, List.mem_flatMap,
      List.mem_range, List.not_mem_nil, or_false] at hc
    rcases hc with rfl | ⟨n, hn, rfl | rfl | rfl | rfl | rfl | rfl | rfl⟩
    · exact ⟨⟨.adc, "IN", rfl, rfl⟩, fun ids => show "CLK" ≠ "" by decide⟩
    · refine ⟨⟨.src, fmt "S_" n "", ?_, trivial⟩, fun ids => fmt_ne_empty _ _ _ (by decide)⟩
      unfold DiPart.hub DiPart.inst
      dsimp only
      rw [rs_name]
    · exact ⟨⟨.dff n, "IN", rfl, Or.inl rfl⟩, fun ids => fmt_ne_empty _ _ _ (by decide)⟩
    · exact ⟨⟨.dff n, "CLK", rfl, Or.inr rfl⟩, fun ids => show "OUT" ≠ "" by decide⟩
    · exact ⟨⟨.dac true n, "IN", rfl, trivial⟩, fun ids => show "F_OUT_P" ≠ "" by decide⟩
    · exact ⟨⟨.dac false n, "IN", rfl, trivial⟩, fun ids => show "F_OUT_N" ≠ "" by decide⟩
    · exact ⟨⟨.dac true n, "OUT", rfl, trivial⟩, fun ids => fmt_ne_empty _ _ _ (by decide)⟩
    · exact ⟨⟨.dac false n, "OUT", rfl, trivial⟩, fun ids => fmt_ne_empty _ _ _ (by decide)⟩

theorem di_star (cs : List (Obj × Obj)) (h : ∀ c ∈ cs, DiConn c) : Star cs := by
  constructor
  · intro c hc d hd e
    obtain ⟨q, s, rfl, hq⟩ := h c hc
    obtain ⟨r, u, rfl, hr⟩ := h d hd
    dsimp only at e
    unfold DiPart.hub at e
    rcases r with _ | _ | _ | m | ⟨_ | _, m⟩
    · cases e
    · cases e
    · cases e
    · dsimp only at e
      split_ifs at e
      obtain ⟨e1, rfl⟩ := Obj.pin.inj e
      have : q = .adc := di_inj e1
      subst this
      revert hq
      unfold DiPart.ok
      simp
    · dsimp only at e
      split_ifs at e
      obtain ⟨e1, rfl⟩ := Obj.pin.inj e
      have : q = .dff m := di_inj e1
      subst this
      revert hq
      unfold DiPart.ok
      simp
    · dsimp only at e
      split_ifs at e
      obtain ⟨e1, rfl⟩ := Obj.pin.inj e
      have : q = .dff m := di_inj e1
      subst this
      revert hq
      unfold DiPart.ok
      simp
  · intro c hc d hd e
    obtain ⟨q, s, rfl, hq⟩ := h c hc
    obtain ⟨r, u, rfl, hr⟩ := h d hd
    obtain ⟨e1, rfl⟩ := Obj.pin.inj e
    rw [di_inj e1]

/-- The netlist of the dither control. -/
def dcNet (N L M R : ℕ) : List (Line K) :=
  [⟨"Xdc", .sub "digital_control", controlPins N L M⟩,
   ⟨"Ars", .other "r_source", (List.range R).map (fmt "RS_" · "")⟩,
   ⟨"Aclk_adc", .other "adc", ["CLK", "OUT"]⟩]
    ++ ((List.range R).map fun m => ⟨fmt "Adffp_" m "", .other "dflip",
        [fmt "RS_" m "", "OUT", "SET", "RES", "F_OUT_P", "F_OUT_N"]⟩)
    ++ ((List.range R).map fun m => ⟨fmt "Adac_p_" m "", .other "dac", ["F_OUT_P", fmt "S" m "_P"]⟩)
    ++ ((List.range R).map fun m => ⟨fmt "Adac_n_" m "", .other "dac", ["F_OUT_N", fmt "S" m "_N"]⟩)


/-- A terminal that is never attached to another one keeps its own name. -/
theorem node_first {τ : Type} [DecidableEq τ] (nm : τ → String) (cs : List (τ × τ)) (h : Star cs)
    (hn : ∀ c ∈ cs, nm c.1 ≠ "") (t : τ) (ht : ∀ c ∈ cs, t ≠ c.2) :
    (Wires.connects nm cs .empty).node nm t = nm t := by
  by_cases hT : Touched cs t
  · obtain ⟨c, hc, e | e⟩ := hT
    · have := (star_node nm cs h hn c hc).1
      rw [← e] at this
      exact this
    · exact absurd e (ht c hc)
  · have I := starInv_connects nm cs h hn
    have : (Wires.connects nm cs .empty).port t = none := by
      have := (I.touched t).not.mpr hT
      simpa using this
    unfold Wires.node
    rw [this]

omit [Field K] [LinearOrder K] in
theorem di_parts (N L M R : ℕ) : parts (ditherControlOps N L M R : List (Op Obj K)) =
    [⟨"Xdc", .sub "digital_control", (controlPins N L M).map (.pin "Xdc")⟩,
     ⟨"Ars", .other "r_source", (List.range R).map (fun m => .pin "Ars" (fmt "S_" m ""))⟩,
     ⟨"Aclk_adc", .other "adc", ["IN", "OUT", "VCM"].map (.pin "Aclk_adc")⟩]
    ++ ((List.range R).map fun m =>
        ⟨fmt "Adffp_" m "", .other "dflip", flipFlopPins.map (.pin (fmt "Adffp_" m ""))⟩)
    ++ ((List.range R).map fun m =>
        ⟨fmt "Adac_p_" m "", .other "dac", ["IN", "OUT"].map (.pin (fmt "Adac_p_" m ""))⟩)
    ++ ((List.range R).map fun m =>
        ⟨fmt "Adac_n_" m "", .other "dac", ["IN", "OUT"].map (.pin (fmt "Adac_n_" m ""))⟩) := by
  unfold ditherControlOps ditherOps
  rw [parts_append, control_parts]
  simp only [List.cons_append, List.nil_append, List.append_assoc, parts, parts_append,
    parts_flatMap, parts_map_add, flatMap_none, List.append_nil]

omit [Field K] [LinearOrder K] in
theorem di_control_mem (N L M : ℕ) (s : String) (hs : s ∈ controlPins N L M) :
    ((.own s, .pin "Xdc" s) : Obj × Obj) ∈ conns (controlOps "S" N L M : List (Op Obj K)) := by
  simp only [controlPins, List.mem_append, List.mem_cons, List.not_mem_nil, or_false, List.mem_map,
    List.mem_range] at hs
  simp only [controlOps, List.map_cons, List.map_nil, List.cons_append, List.nil_append,
    conns, conns_append, conns_flatMap, List.mem_cons, List.mem_append, List.mem_flatMap,
    List.mem_range, List.not_mem_nil, or_false]
  rcases hs with ((((((rfl | rfl | rfl | rfl) | ⟨n, hn, rfl⟩) | ⟨n, hn, rfl⟩) | ⟨n, hn, rfl⟩) |
    ⟨n, hn, rfl⟩) | ⟨n, hn, rfl⟩) | ⟨n, hn, rfl⟩
  · exact Or.inl rfl
  · exact Or.inr (Or.inl rfl)
  · exact Or.inr (Or.inr (Or.inl rfl))
  · exact Or.inr (Or.inr (Or.inr (Or.inl rfl)))
  · exact Or.inr (Or.inr (Or.inr (Or.inr (Or.inl (Or.inl ⟨n, hn, Or.inl rfl⟩)))))
  · exact Or.inr (Or.inr (Or.inr (Or.inr (Or.inl (Or.inl ⟨n, hn, Or.inr rfl⟩)))))
  · exact Or.inr (Or.inr (Or.inr (Or.inr (Or.inl (Or.inr ⟨n, hn, Or.inl rfl⟩)))))
  · exact Or.inr (Or.inr (Or.inr (Or.inr (Or.inl (Or.inr ⟨n, hn, Or.inr rfl⟩)))))
  · exact Or.inr (Or.inr (Or.inr (Or.inr (Or.inr ⟨n, hn, Or.inl rfl⟩))))
  · exact Or.inr (Or.inr (Or.inr (Or.inr (Or.inr ⟨n, hn, Or.inr rfl⟩))))

/-- The connections of random control `m`. -/
def diConns (m : ℕ) : List (Obj × Obj) :=
  [(.own (fmt "RS_" m ""), .pin "Ars" (fmt "S_" m "")),
   (.own (fmt "RS_" m ""), .pin (fmt "Adffp_" m "") "IN"),
   (.pin "Aclk_adc" "OUT", .pin (fmt "Adffp_" m "") "CLK"),
   (.pin (fmt "Adffp_" m "") "F_OUT_P", .pin (fmt "Adac_p_" m "") "IN"),
   (.pin (fmt "Adffp_" m "") "F_OUT_N", .pin (fmt "Adac_n_" m "") "IN"),
   (.own (fmt "S" m "_P"), .pin (fmt "Adac_p_" m "") "OUT"),
   (.own (fmt "S" m "_N"), .pin (fmt "Adac_n_" m "") "OUT")]

omit [Field K] [LinearOrder K] in
theorem di_mem (R : ℕ) : (.own "CLK", .pin "Aclk_adc" "IN") ∈ conns (ditherOps R : List (Op Obj K)) ∧
    ∀ m < R, ∀ c ∈ diConns m, c ∈ conns (ditherOps R : List (Op Obj K)) := by
  simp only [ditherOps, List.cons_append, List.nil_append, List.append_assoc,
    conns, conns_append, conns_flatMap, conns_map_add, List.mem_cons, List.mem_flatMap, List.mem_range]
  refine ⟨Or.inl trivial, ?_⟩
  intro m hm c hc
  refine Or.inr ⟨m, hm, ?_⟩
  simpa only [diConns, List.mem_cons] using hc

omit [Field K] [LinearOrder K] in
theorem nodeOrder_other {k : String} (h : k ≠ "adc") (l : List String) :
    nodeOrder (.other k : Device K) l = l := by
  unfold nodeOrder
  split
  · contradiction
  · contradiction
  · contradiction
  · rename_i e
    cases e
    rw [if_neg h]
  · rfl

omit [Field K] [LinearOrder K] in
theorem di_netlist (ids : String → ℕ → String) (N L M R : ℕ) :
    ∃ s : Sub Obj K, Sub.run (Obj.name ids) (ditherControlOps N L M R) .empty = .ok s ∧
      s.netlist (Obj.name ids) = dcNet N L M R := by
  have hnd : ((Sub.empty.parts ++ parts (ditherControlOps N L M R : List (Op Obj K))).map
      Part.inst).Nodup := by
    change ((parts (ditherControlOps N L M R : List (Op Obj K))).map Part.inst).Nodup
    have e : (parts (ditherControlOps N L M R : List (Op Obj K))).map Part.inst =
        ([DiPart.ctl, .src, .adc] ++ (List.range R).map DiPart.dff
          ++ (List.range R).map (DiPart.dac true) ++ (List.range R).map (DiPart.dac false)).map DiPart.inst := by
      rw [di_parts]
      simp only [List.map_append, List.map_map, List.map_cons, List.map_nil]
      rfl
    rw [e]
    apply List.Nodup.map di_inj
    simp only [List.nodup_append, List.nodup_cons, List.mem_append, List.mem_map, List.mem_cons,
      List.not_mem_nil, or_false]
    refine ⟨⟨⟨?_, ?_, ?_⟩, ?_, ?_⟩, ?_, ?_⟩
    · simp
    · exact List.Nodup.map (fun a b h => by cases h; rfl) List.nodup_range
    · rintro a (rfl | rfl | rfl) b ⟨m, -, rfl⟩ <;> simp
    · exact List.Nodup.map (fun a b h => by cases h; rfl) List.nodup_range
    · rintro a ((rfl | rfl | rfl) | ⟨m, -, rfl⟩) b ⟨m, -, rfl⟩ <;> simp
    · exact List.Nodup.map (fun a b h => by cases h; rfl) List.nodup_range
    · rintro a (((rfl | rfl | rfl) | ⟨m, -, rfl⟩) | ⟨m, -, rfl⟩) b ⟨m, -, rfl⟩ <;> simp
  have hrun := run_eq (Obj.name ids) (ditherControlOps N L M R : List (Op Obj K)) .empty hnd
  refine ⟨_, hrun, ?_⟩
  have hc := di_conns (K := K) N L M R
  have hst : Star (conns (ditherControlOps N L M R : List (Op Obj K))) := di_star _ fun c h => (hc c h).1
  have hne : ∀ c ∈ conns (ditherControlOps N L M R : List (Op Obj K)), c.1.name ids ≠ "" :=
    fun c h => (hc c h).2 ids
  obtain ⟨w, hw⟩ : ∃ w, w = Wires.connects (Obj.name ids)
    (conns (ditherControlOps N L M R : List (Op Obj K))) .empty := ⟨_, rfl⟩
  have node : ∀ c ∈ conns (ditherControlOps N L M R : List (Op Obj K)),
      w.node (Obj.name ids) c.2 = c.1.name ids := by
    intro c hcm
    rw [hw]
    exact (star_node _ _ hst hne c hcm).2
  have first : ∀ q : DiPart, ∀ s, ¬ q.ok s → w.node (Obj.name ids) (.pin q.inst s) = s := by
    intro q s hq
    rw [hw]
    refine node_first _ _ hst hne _ ?_
    intro c hcm e
    obtain ⟨r, u, rfl, hr⟩ := (hc c hcm).1
    obtain ⟨e1, rfl⟩ := Obj.pin.inj e
    rw [di_inj e1] at hq
    exact hq hr
  change (parts (ditherControlOps N L M R : List (Op Obj K))).map (Part.line (Obj.name ids)
    (Wires.connects (Obj.name ids) (conns (ditherControlOps N L M R : List (Op Obj K))) .empty)) = _
  rw [← hw, di_parts]
  have hctl : ∀ s ∈ controlPins N L M, w.node (Obj.name ids) (.pin "Xdc" s) = s := by
    intro s hs
    refine node (.own s, .pin "Xdc" s) ?_
    unfold ditherControlOps
    rw [conns_append]
    exact List.mem_append_left _ (di_control_mem N L M s hs)
  have hclk : w.node (Obj.name ids) (.pin "Aclk_adc" "IN") = "CLK" := by
    refine node (.own "CLK", .pin "Aclk_adc" "IN") ?_
    unfold ditherControlOps
    rw [conns_append]
    exact List.mem_append_right _ (di_mem R).1
  have hloop : ∀ m < R, ∀ c ∈ diConns m, w.node (Obj.name ids) c.2 = c.1.name ids := by
    intro m hm c hcm
    apply node
    unfold ditherControlOps
    rw [conns_append]
    exact List.mem_append_right _ ((di_mem R).2 m hm c hcm)
  have hout : w.node (Obj.name ids) (.pin "Aclk_adc" "OUT") = "OUT" :=
    first .adc "OUT" (by unfold DiPart.ok; decide)
  have hff : ∀ m s, s ≠ "IN" → s ≠ "CLK" →
      w.node (Obj.name ids) (.pin (fmt "Adffp_" m "") s) = s := by
    intro m s h1 h2
    refine first (.dff m) s ?_
    unfold DiPart.ok
    simp only [h1, h2, or_self, not_false_iff]
  unfold dcNet
  simp only [diConns, List.forall_mem_cons, List.not_mem_nil, false_imp_iff, implies_true,
    and_true, Obj.name] at hloop
  rw [List.map_append, List.map_append, List.map_append, List.map_map, List.map_map, List.map_map]
  congr 1
  · congr 1
    · congr 1
      · simp only [List.map_cons, List.map_nil, Part.line, nodeOrder, List.map_map, hclk, hout, if_true]
        refine congrArg₂ _ ?_ (congrArg₂ _ ?_ rfl)
        · congr 1
          conv_rhs => rw [← List.map_id (controlPins N L M)]
          apply List.map_congr_left
          exact hctl
        · change (⟨"Ars", .other "r_source", nodeOrder (.other "r_source" : Device K) _⟩ : Line K) = _
          rw [nodeOrder_other (k := "r_source") (by decide)]
          congr 1
          apply List.map_congr_left
          intro m hm
          exact (hloop m (List.mem_range.mp hm)).1
      · apply List.map_congr_left
        intro m hm
        obtain ⟨-, h2, h3, -⟩ := hloop m (List.mem_range.mp hm)
        simp only [Function.comp, Part.line, nodeOrder, flipFlopPins, List.map_cons, List.map_nil, h2,
          h3, hff m "SET" (by decide) (by decide), hff m "RES" (by decide) (by decide),
          hff m "F_OUT_P" (by decide) (by decide), hff m "F_OUT_N" (by decide) (by decide)]
    · apply List.map_congr_left
      intro m hm
      obtain ⟨-, -, -, h4, -, h6, -⟩ := hloop m (List.mem_range.mp hm)
      simp only [Function.comp, Part.line, nodeOrder, List.map_cons, List.map_nil, h4, h6]
  · apply List.map_congr_left
    intro m hm
    obtain ⟨-, -, -, -, h5, -, h7⟩ := hloop m (List.mem_range.mp hm)
    simp only [Function.comp, Part.line, nodeOrder, List.map_cons, List.map_nil, h5, h7]

/-! ## The property -/

omit [Field K] [LinearOrder K] in
theorem dcNet_mem (N L M R : ℕ) (l : Line K) : l ∈ dcNet N L M R ↔
    l = ⟨"Xdc", .sub "digital_control", controlPins N L M⟩ ∨
    l = ⟨"Ars", .other "r_source", (List.range R).map (fmt "RS_" · "")⟩ ∨
    l = ⟨"Aclk_adc", .other "adc", ["CLK", "OUT"]⟩ ∨
    (∃ m < R, l = ⟨fmt "Adffp_" m "", .other "dflip",
      [fmt "RS_" m "", "OUT", "SET", "RES", "F_OUT_P", "F_OUT_N"]⟩) ∨
    (∃ m < R, l = ⟨fmt "Adac_p_" m "", .other "dac", ["F_OUT_P", fmt "S" m "_P"]⟩) ∨
    ∃ m < R, l = ⟨fmt "Adac_n_" m "", .other "dac", ["F_OUT_N", fmt "S" m "_N"]⟩ := by
  unfold dcNet
  simp only [List.mem_append, List.mem_cons, List.not_mem_nil, or_false, List.mem_map, List.mem_range,
    or_assoc, eq_comm (b := l)]

theorem out_notMem (N L M : ℕ) (b : Bool) :
    (if b then "F_OUT_P" else "F_OUT_N") ∉ controlPins N L M := by
  simp only [controlPins, List.mem_append, List.mem_cons, List.not_mem_nil, or_false, List.mem_map,
    List.mem_range]
  intro h
  rcases h with ((((((h | h | h | h) | ⟨n, hn, h⟩) | ⟨n, hn, h⟩) | ⟨n, hn, h⟩) |
    ⟨n, hn, h⟩) | ⟨n, hn, h⟩) | ⟨n, hn, h⟩ <;> cases b <;> simp only [if_true, Bool.false_eq_true, if_false] at h <;>
    names at h

omit [Field K] [LinearOrder K] in
/-- C91, what holds for every number of random controls: the constructor succeeds; the reference
sequence `m` drives flip-flop `m`, the flip-flops are clocked by the converted clock, flip-flop `m`
drives the converters `m`, and these drive the terminals `S{m}_P` and `S{m}_N`.

Full statement (false, see `C91_isolated_false`): moreover, the outputs of different flip-flops are
on different nodes. -/
theorem C91_path (ids : String → ℕ → String) (N L M R : ℕ) :
    ∃ s : Sub Obj K, Sub.run (Obj.name ids) (ditherControlOps N L M R) .empty = .ok s ∧
      ∀ m < R, ∃ r c p n,
        At (s.netlist (Obj.name ids)) "Ars" m r ∧
        At (s.netlist (Obj.name ids)) (fmt "Adffp_" m "") 0 r ∧
        At (s.netlist (Obj.name ids)) "Aclk_adc" 0 "CLK" ∧
        At (s.netlist (Obj.name ids)) "Aclk_adc" 1 c ∧
        At (s.netlist (Obj.name ids)) (fmt "Adffp_" m "") 1 c ∧
        At (s.netlist (Obj.name ids)) (fmt "Adffp_" m "") 4 p ∧
        At (s.netlist (Obj.name ids)) (fmt "Adac_p_" m "") 0 p ∧
        At (s.netlist (Obj.name ids)) (fmt "Adac_p_" m "") 1 (fmt "S" m "_P") ∧
        At (s.netlist (Obj.name ids)) (fmt "Adffp_" m "") 5 n ∧
        At (s.netlist (Obj.name ids)) (fmt "Adac_n_" m "") 0 n ∧
        At (s.netlist (Obj.name ids)) (fmt "Adac_n_" m "") 1 (fmt "S" m "_N") := by
  obtain ⟨s, hs, hn⟩ := di_netlist (K := K) ids N L M R
  refine ⟨s, hs, ?_⟩
  rw [hn]
  intro m hm
  have hA := (dcNet_mem (K := K) N L M R _).mpr (Or.inr (Or.inl rfl))
  have hC := (dcNet_mem (K := K) N L M R _).mpr (Or.inr (Or.inr (Or.inl rfl)))
  have hF := (dcNet_mem (K := K) N L M R _).mpr (Or.inr (Or.inr (Or.inr (Or.inl ⟨m, hm, rfl⟩))))
  have hP := (dcNet_mem (K := K) N L M R _).mpr
    (Or.inr (Or.inr (Or.inr (Or.inr (Or.inl ⟨m, hm, rfl⟩)))))
  have hN := (dcNet_mem (K := K) N L M R _).mpr
    (Or.inr (Or.inr (Or.inr (Or.inr (Or.inr ⟨m, hm, rfl⟩)))))
  refine ⟨fmt "RS_" m "", "OUT", "F_OUT_P", "F_OUT_N", ⟨_, hA, rfl, ?_⟩, ⟨_, hF, rfl, rfl⟩,
    ⟨_, hC, rfl, rfl⟩, ⟨_, hC, rfl, rfl⟩, ⟨_, hF, rfl, rfl⟩, ⟨_, hF, rfl, rfl⟩, ⟨_, hP, rfl, rfl⟩,
    ⟨_, hP, rfl, rfl⟩, ⟨_, hF, rfl, rfl⟩, ⟨_, hN, rfl, rfl⟩, ⟨_, hN, rfl, rfl⟩⟩
  simp [hm]

omit [Field K] [LinearOrder K] in
/-- C91 for one random control: the nodes of the output of the flip-flop are shared with nothing but
the input of the converter they drive, so that nothing else determines `S0_P` and `S0_N`. -/
theorem C91_isolated_partial (ids : String → ℕ → String) (N L M : ℕ) :
    ∃ s : Sub Obj K, Sub.run (Obj.name ids) (ditherControlOps N L M 1) .empty = .ok s ∧
      ∃ p n, At (s.netlist (Obj.name ids)) "Adffp_0" 4 p ∧ At (s.netlist (Obj.name ids)) "Adffp_0" 5 n ∧
        (∀ e k, At (s.netlist (Obj.name ids)) e k p ↔ (e = "Adffp_0" ∧ k = 4) ∨ (e = "Adac_p_0" ∧ k = 0)) ∧
        ∀ e k, At (s.netlist (Obj.name ids)) e k n ↔ (e = "Adffp_0" ∧ k = 5) ∨ (e = "Adac_n_0" ∧ k = 0) := by
  obtain ⟨s, hs, hn⟩ := di_netlist (K := K) ids N L M 1
  refine ⟨s, hs, "F_OUT_P", "F_OUT_N", ?_⟩
  rw [hn]
  have hF := (dcNet_mem (K := K) N L M 1 _).mpr (Or.inr (Or.inr (Or.inr (Or.inl ⟨0, by omega, rfl⟩))))
  have hP := (dcNet_mem (K := K) N L M 1 _).mpr
    (Or.inr (Or.inr (Or.inr (Or.inr (Or.inl ⟨0, by omega, rfl⟩)))))
  have hN := (dcNet_mem (K := K) N L M 1 _).mpr
    (Or.inr (Or.inr (Or.inr (Or.inr (Or.inr ⟨0, by omega, rfl⟩)))))
  have c0 : fmt "RS_" 0 "" = "RS_0" := rfl
  have c1 : fmt "S" 0 "_P" = "S0_P" := rfl
  have c2 : fmt "S" 0 "_N" = "S0_N" := rfl
  refine ⟨⟨_, hF, rfl, rfl⟩, ⟨_, hF, rfl, rfl⟩, ?_, ?_⟩
  · intro e k
    constructor
    · rintro ⟨l, hl, rfl, hk⟩
      rcases (dcNet_mem (K := K) N L M 1 l).mp hl with rfl | rfl | rfl | ⟨m, hm, rfl⟩ | ⟨m, hm, rfl⟩ |
        ⟨m, hm, rfl⟩
      · exact absurd (List.mem_of_getElem? hk) (out_notMem N L M true)
      · have := List.mem_of_getElem? hk
        simp only [List.mem_map] at this
        obtain ⟨m, -, h⟩ := this
        names at h
      · exact absurd (List.mem_of_getElem? hk) (show "F_OUT_P" ∉ ["CLK", "OUT"] by decide)
      · obtain rfl : m = 0 := by omega
        refine Or.inl ⟨rfl, ?_⟩
        rcases k with _ | _ | _ | _ | _ | _ | k <;> simp [c0] at hk ⊢
      · obtain rfl : m = 0 := by omega
        refine Or.inr ⟨rfl, ?_⟩
        rcases k with _ | _ | k <;> simp [c1] at hk ⊢
      · obtain rfl : m = 0 := by omega
        exact absurd (List.mem_of_getElem? hk) (show "F_OUT_P" ∉ ["F_OUT_N", "S0_N"] by decide)
    · rintro (⟨rfl, rfl⟩ | ⟨rfl, rfl⟩)
      · exact ⟨_, hF, rfl, rfl⟩
      · exact ⟨_, hP, rfl, rfl⟩
  · intro e k
    constructor
    · rintro ⟨l, hl, rfl, hk⟩
      rcases (dcNet_mem (K := K) N L M 1 l).mp hl with rfl | rfl | rfl | ⟨m, hm, rfl⟩ | ⟨m, hm, rfl⟩ |
        ⟨m, hm, rfl⟩
      · exact absurd (List.mem_of_getElem? hk) (out_notMem N L M false)
      · have := List.mem_of_getElem? hk
        simp only [List.mem_map] at this
        obtain ⟨m, -, h⟩ := this
        names at h
      · exact absurd (List.mem_of_getElem? hk) (show "F_OUT_N" ∉ ["CLK", "OUT"] by decide)
      · obtain rfl : m = 0 := by omega
        refine Or.inl ⟨rfl, ?_⟩
        rcases k with _ | _ | _ | _ | _ | _ | k <;> simp [c0] at hk ⊢
      · obtain rfl : m = 0 := by omega
        exact absurd (List.mem_of_getElem? hk) (show "F_OUT_N" ∉ ["F_OUT_P", "S0_P"] by decide)
      · obtain rfl : m = 0 := by omega
        refine Or.inr ⟨rfl, ?_⟩
        rcases k with _ | _ | k <;> simp [c2] at hk ⊢
    · rintro (⟨rfl, rfl⟩ | ⟨rfl, rfl⟩)
      · exact ⟨_, hF, rfl, rfl⟩
      · exact ⟨_, hN, rfl, rfl⟩

omit [Field K] [LinearOrder K] in
/-- C91 fails for more than one random control: any two flip-flops drive the same node, because the
net is named after the terminal `F_OUT_P` of the flip-flop and all flip-flops have a terminal of that
name.  Hence the inputs of all converters are tied together. -/
theorem C91_isolated_false (ids : String → ℕ → String) (N L M R m m' : ℕ) (hm : m < R) (hm' : m' < R) :
    ∃ (s : Sub Obj K) (p n : String),
      Sub.run (Obj.name ids) (ditherControlOps N L M R) .empty = .ok s ∧
      At (s.netlist (Obj.name ids)) (fmt "Adffp_" m "") 4 p ∧
      At (s.netlist (Obj.name ids)) (fmt "Adffp_" m' "") 4 p ∧
      At (s.netlist (Obj.name ids)) (fmt "Adac_p_" m "") 0 p ∧
      At (s.netlist (Obj.name ids)) (fmt "Adac_p_" m' "") 0 p ∧
      At (s.netlist (Obj.name ids)) (fmt "Adffp_" m "") 5 n ∧
      At (s.netlist (Obj.name ids)) (fmt "Adffp_" m' "") 5 n := by
  obtain ⟨s, hs, hn⟩ := di_netlist (K := K) ids N L M R
  refine ⟨s, "F_OUT_P", "F_OUT_N", hs, ?_⟩
  rw [hn]
  have hF := (dcNet_mem (K := K) N L M R _).mpr (Or.inr (Or.inr (Or.inr (Or.inl ⟨m, hm, rfl⟩))))
  have hP := (dcNet_mem (K := K) N L M R _).mpr
    (Or.inr (Or.inr (Or.inr (Or.inr (Or.inl ⟨m, hm, rfl⟩)))))
  have hF' := (dcNet_mem (K := K) N L M R _).mpr (Or.inr (Or.inr (Or.inr (Or.inl ⟨m', hm', rfl⟩))))
  have hP' := (dcNet_mem (K := K) N L M R _).mpr
    (Or.inr (Or.inr (Or.inr (Or.inr (Or.inl ⟨m', hm', rfl⟩)))))
  exact ⟨⟨_, hF, rfl, rfl⟩, ⟨_, hF', rfl, rfl⟩, ⟨_, hP, rfl, rfl⟩, ⟨_, hP', rfl, rfl⟩,
    ⟨_, hF, rfl, rfl⟩, ⟨_, hF', rfl, rfl⟩⟩

end Cbadc.Circuit
