import Verif.Lemmas.Frontend

/-! # The netlist of the op-amp frontend -/

namespace Cbadc.Circuit

open Spec

/-- The three groups of resistors. -/
inductive Kind
  | b | a | g
deriving DecidableEq

/-- Prefix of the instance names of a group. -/
def Kind.pre : Kind → String
  | .b => "b_" | .a => "a_" | .g => "gamma_"

/-- Name of the sources of a group. -/
def Kind.src : Kind → String
  | .b => "IN" | .a => "X" | .g => "OUT"

/-- The parts of the op-amp frontend. -/
inductive OaPart
  | ctl
  | res (kd : Kind) (p : Bool) (n j : ℕ)
  | op (n : ℕ)
  | cap (p : Bool) (n : ℕ)

/-- `_P` or `_N`. -/
def sfx (p : Bool) : String := if p then "_P" else "_N"

/-- The instance names. -/
def OaPart.inst : OaPart → String
  | .ctl => "Xdc"
  | .res kd true n j => "Rp_" ++ fmt2 kd.pre n j
  | .res kd false n j => "Rn_" ++ fmt2 kd.pre n j
  | .op n => fmt "Xop_" n ""
  | .cap true n => fmt "Cp_" n ""
  | .cap false n => fmt "Cn_" n ""

theorem OaPart.inst_inj : Function.Injective OaPart.inst := by
  intro x y h
  rcases x with _ | ⟨k1, p1, n1, j1⟩ | n1 | ⟨p1, n1⟩ <;>
    rcases y with _ | ⟨k2, p2, n2, j2⟩ | n2 | ⟨p2, n2⟩ <;>
    (try cases p1) <;> (try cases p2) <;> (try cases k1) <;> (try cases k2) <;>
    simp only [OaPart.inst, Kind.pre] at h <;>
    first
      | rfl
      | (names at h; done)
      | (names at h; obtain ⟨h1, h2⟩ := h; rw [h1, h2])
      | (names at h; rw [h])

/-- The hub of a named pin. -/
def OaPart.hubPin : OaPart → String → String
  | .ctl, s => match s.toList with
    | 'S' :: r => "OUT" ++ String.ofList r
    | _ => s
  | .op n, s =>
    if s = "OUT_P" then fmt "X" n "_P" else if s = "OUT_N" then fmt "X" n "_N"
    else if s = "IN_P" then fmt "VGND_" n "_P" else if s = "IN_N" then fmt "VGND_" n "_N" else s
  | _, s => s

/-- The hub of a numbered terminal; `neg` tells the negative entries of the matrices. -/
def OaPart.hubNum (neg : Kind → ℕ → ℕ → Bool) : OaPart → ℕ → String
  | .res kd p _ j, 0 => fmt kd.src j (sfx p)
  | .res kd p n j, _ => fmt "VGND_" n (sfx (if neg kd n j then p else !p))
  | .cap p n, 0 => fmt "VGND_" n (sfx p)
  | .cap p n, _ => fmt "X" n (sfx p)
  | _, _ => "?"

/-- A connection to the right hub. -/
def OaConn (neg : Kind → ℕ → ℕ → Bool) (c : Obj × Obj) : Prop :=
  (∃ (q : OaPart) (s : String), c = (.own (q.hubPin s), .pin q.inst s)) ∨
    ∃ (q : OaPart) (k : ℕ), c = (.own (q.hubNum neg k), .num q.inst k)

theorem fmt_ne_empty (a : String) (n : ℕ) (b : String) (h : a ≠ "") : fmt a n b ≠ "" := by
  intro e
  unfold fmt at e
  rw [String.append_eq_empty_iff] at e
  exact h e.1

section

variable {K : Type*} [Field K] [LinearOrder K]

theorem hubPin_fmt (a : String) (n : ℕ) (b : String)
    (ha : ∃ c r, a.toList = c :: r ∧ c ≠ 'S') :
    OaPart.ctl.hubPin (fmt a n b) = fmt a n b := by
  obtain ⟨c, r, hc, hs⟩ := ha
  unfold OaPart.hubPin
  have : (fmt a n b).toList = c :: (r ++ (n.repr ++ b).toList) := by
    unfold fmt
    rw [String.toList_append, hc]
    rfl
  dsimp only
  rw [this]
  split
  · next r' e => exact absurd (List.cons.inj e).1 hs
  · rfl

theorem hubPin_s (n : ℕ) (b : String) : OaPart.ctl.hubPin (fmt "S" n b) = fmt "OUT" n b := by
  unfold OaPart.hubPin
  have : (fmt "S" n b).toList = 'S' :: (n.repr ++ b).toList := by
    unfold fmt
    rw [String.toList_append]
    rfl
  dsimp only
  rw [this]
  simp only
  rw [String.ofList_toList]
  rfl

theorem hubPin_x (n : ℕ) (b : String) : OaPart.ctl.hubPin (fmt "X" n b) = fmt "X" n b :=
  hubPin_fmt _ _ _ ⟨'X', [], rfl, by decide⟩

theorem hubPin_in (n : ℕ) (b : String) : OaPart.ctl.hubPin (fmt "IN" n b) = fmt "IN" n b :=
  hubPin_fmt _ _ _ ⟨'I', ['N'], rfl, by decide⟩

omit [Field K] [LinearOrder K] in
theorem control_conns (neg : Kind → ℕ → ℕ → Bool) (N L M : ℕ) :
    ∀ c ∈ conns (controlOps "OUT" N L M : List (Op Obj K)),
      OaConn neg c ∧ ∃ s, c.1 = .own s ∧ s ≠ "" := by
  intro c hc
  simp only [controlOps, List.map_cons, List.map_nil, List.cons_append, List.nil_append,
    conns, conns_append, conns_flatMap, List.mem_cons, List.mem_append, List.mem_flatMap,
    List.mem_range, List.not_mem_nil, or_false] at hc
  rcases hc with rfl | rfl | rfl | rfl | ((⟨n, hn, rfl | rfl⟩) | ⟨n, hn, rfl | rfl⟩) |
    ⟨n, hn, rfl | rfl⟩
  · exact ⟨Or.inl ⟨.ctl, "VSS", rfl⟩, _, rfl, by decide⟩
  · exact ⟨Or.inl ⟨.ctl, "VDD", rfl⟩, _, rfl, by decide⟩
  · exact ⟨Or.inl ⟨.ctl, "CLK", rfl⟩, _, rfl, by decide⟩
  · exact ⟨Or.inl ⟨.ctl, "VCM", rfl⟩, _, rfl, by decide⟩
  · exact ⟨Or.inl ⟨.ctl, fmt "X" n "_P", by rw [hubPin_x]; rfl⟩, _, rfl, fmt_ne_empty _ _ _ (by decide)⟩
  · exact ⟨Or.inl ⟨.ctl, fmt "X" n "_N", by rw [hubPin_x]; rfl⟩, _, rfl, fmt_ne_empty _ _ _ (by decide)⟩
  · exact ⟨Or.inl ⟨.ctl, fmt "IN" n "_P", by rw [hubPin_in]; rfl⟩, _, rfl, fmt_ne_empty _ _ _ (by decide)⟩
  · exact ⟨Or.inl ⟨.ctl, fmt "IN" n "_N", by rw [hubPin_in]; rfl⟩, _, rfl, fmt_ne_empty _ _ _ (by decide)⟩
  · exact ⟨Or.inl ⟨.ctl, fmt "S" n "_P", by rw [hubPin_s]; rfl⟩, _, rfl, fmt_ne_empty _ _ _ (by decide)⟩
  · exact ⟨Or.inl ⟨.ctl, fmt "S" n "_N", by rw [hubPin_s]; rfl⟩, _, rfl, fmt_ne_empty _ _ _ (by decide)⟩

omit [Field K] [LinearOrder K] in
theorem control_mem (N L M : ℕ) (s : String) (hs : s ∈ controlPins N L M) :
    ((.own (OaPart.ctl.hubPin s), .pin "Xdc" s) : Obj × Obj) ∈
      conns (controlOps "OUT" N L M : List (Op Obj K)) := by
  simp only [controlPins, List.mem_append, List.mem_cons, List.not_mem_nil, or_false, List.mem_map,
    List.mem_range] at hs
  simp only [controlOps, List.map_cons, List.map_nil, List.cons_append, List.nil_append,
    conns, conns_append, conns_flatMap, List.mem_cons, List.mem_append, List.mem_flatMap,
    List.mem_range, List.not_mem_nil, or_false]
  rcases hs with ((((((rfl | rfl | rfl | rfl) | ⟨n, hn, rfl⟩) | ⟨n, hn, rfl⟩) | ⟨n, hn, rfl⟩) |
    ⟨n, hn, rfl⟩) | ⟨n, hn, rfl⟩) | ⟨n, hn, rfl⟩
  · exact Or.inl rfl
  · exact Or.inr (Or.inl rfl)
  · exact Or.inr (Or.inr (Or.inl rfl))
  · exact Or.inr (Or.inr (Or.inr (Or.inl rfl)))
  · rw [hubPin_x]
    exact Or.inr (Or.inr (Or.inr (Or.inr (Or.inl (Or.inl ⟨n, hn, Or.inl rfl⟩)))))
  · rw [hubPin_x]
    exact Or.inr (Or.inr (Or.inr (Or.inr (Or.inl (Or.inl ⟨n, hn, Or.inr rfl⟩)))))
  · rw [hubPin_in]
    exact Or.inr (Or.inr (Or.inr (Or.inr (Or.inl (Or.inr ⟨n, hn, Or.inl rfl⟩)))))
  · rw [hubPin_in]
    exact Or.inr (Or.inr (Or.inr (Or.inr (Or.inl (Or.inr ⟨n, hn, Or.inr rfl⟩)))))
  · rw [hubPin_s]
    exact Or.inr (Or.inr (Or.inr (Or.inr (Or.inr ⟨n, hn, Or.inl rfl⟩))))
  · rw [hubPin_s]
    exact Or.inr (Or.inr (Or.inr (Or.inr (Or.inr ⟨n, hn, Or.inr rfl⟩))))

omit [Field K] [LinearOrder K] in
theorem control_parts (out : String) (N L M : ℕ) :
    parts (controlOps out N L M : List (Op Obj K)) =
      [⟨"Xdc", .sub "digital_control", (controlPins N L M).map (.pin "Xdc")⟩] := by
  simp only [controlOps, List.map_cons, List.map_nil, List.cons_append, List.nil_append,
    parts, parts_append, parts_flatMap, flatMap_none]

/-! ### Resistors -/

/-- The connections of one pair of resistors. -/
theorem pair_conns (v : K) (name : String) (a b c d : Obj) (C : K) :
    conns (resistorPair v name a b c d C) =
      [(a, .num ("Rp_" ++ name) 0), (b, .num ("Rn_" ++ name) 0),
       (c, .num (if v < 0 then "Rp_" ++ name else "Rn_" ++ name) 1),
       (d, .num (if v < 0 then "Rn_" ++ name else "Rp_" ++ name) 1)] := by
  unfold resistorPair
  by_cases h : v < 0
  · simp only [if_pos h]
    rfl
  · simp only [if_neg h]
    rfl

theorem pair_parts (v : K) (name : String) (a b c d : Obj) (C : K) :
    parts (resistorPair v name a b c d C) =
      [⟨"Rp_" ++ name, .res (1 / (1 * C * |v|)), twoPin ("Rp_" ++ name)⟩,
       ⟨"Rn_" ++ name, .res (1 / (1 * C * |v|)), twoPin ("Rn_" ++ name)⟩] := by
  unfold resistorPair
  by_cases h : v < 0
  · simp only [if_pos h]
    rfl
  · simp only [if_neg h]
    rfl

theorem loop_conns_mem (kd : Kind) (N J : ℕ) (F : ℕ → ℕ → K) (C : K) (c : Obj × Obj) :
    c ∈ conns (resistorLoop kd.pre kd.src N J F C) ↔
      ∃ n < N, ∃ j < J, F n j ≠ 0 ∧ ∃ (p : Bool) (k : ℕ), k < 2 ∧
        c = (.own ((OaPart.res kd p n j).hubNum (fun _ n j => decide (F n j < 0)) k),
          .num (OaPart.res kd p n j).inst k) := by
  unfold resistorLoop
  rw [conns_flatMap, List.mem_flatMap]
  constructor
  · rintro ⟨n, hn, hc⟩
    rw [conns_flatMap, List.mem_flatMap] at hc
    obtain ⟨j, hj, hc⟩ := hc
    rw [List.mem_range] at hn hj
    by_cases h0 : F n j ≠ 0
    · rw [if_pos h0, pair_conns] at hc
      refine ⟨n, hn, j, hj, h0, ?_⟩
      simp only [List.mem_cons, List.not_mem_nil, or_false] at hc
      by_cases hv : F n j < 0
      · simp only [if_pos hv] at hc
        rcases hc with rfl | rfl | rfl | rfl
        · exact ⟨true, 0, by omega, rfl⟩
        · exact ⟨false, 0, by omega, rfl⟩
        · exact ⟨true, 1, by omega, by simp [OaPart.hubNum, OaPart.inst, hv, sfx]⟩
        · exact ⟨false, 1, by omega, by simp [OaPart.hubNum, OaPart.inst, hv, sfx]⟩
      · simp only [if_neg hv] at hc
        rcases hc with rfl | rfl | rfl | rfl
        · exact ⟨true, 0, by omega, rfl⟩
        · exact ⟨false, 0, by omega, rfl⟩
        · exact ⟨false, 1, by omega, by simp [OaPart.hubNum, OaPart.inst, hv, sfx]⟩
        · exact ⟨true, 1, by omega, by simp [OaPart.hubNum, OaPart.inst, hv, sfx]⟩
    · rw [if_neg h0] at hc
      cases hc
  · rintro ⟨n, hn, j, hj, h0, p, k, hk, rfl⟩
    refine ⟨n, List.mem_range.mpr hn, ?_⟩
    rw [conns_flatMap, List.mem_flatMap]
    refine ⟨j, List.mem_range.mpr hj, ?_⟩
    rw [if_pos h0, pair_conns]
    simp only [List.mem_cons, List.not_mem_nil, or_false]
    by_cases hv : F n j < 0
    · simp only [if_pos hv]
      obtain rfl | rfl : k = 0 ∨ k = 1 := by omega
      · cases p
        · exact Or.inr (Or.inl rfl)
        · exact Or.inl rfl
      · cases p
        · exact Or.inr (Or.inr (Or.inr (by simp [OaPart.hubNum, OaPart.inst, hv, sfx])))
        · exact Or.inr (Or.inr (Or.inl (by simp [OaPart.hubNum, OaPart.inst, hv, sfx])))
    · simp only [if_neg hv]
      obtain rfl | rfl : k = 0 ∨ k = 1 := by omega
      · cases p
        · exact Or.inr (Or.inl rfl)
        · exact Or.inl rfl
      · cases p
        · exact Or.inr (Or.inr (Or.inl (by simp [OaPart.hubNum, OaPart.inst, hv, sfx])))
        · exact Or.inr (Or.inr (Or.inr (by simp [OaPart.hubNum, OaPart.inst, hv, sfx])))

/-- The part of the netlist for one group of resistors. -/
def resNet (kd : Kind) (N J : ℕ) (F : ℕ → ℕ → K) (C : K) : List (Line K) :=
  (List.range N).flatMap fun n => (List.range J).flatMap fun j =>
    if F n j ≠ 0 then
      [⟨"Rp_" ++ fmt2 kd.pre n j, .res (1 / (1 * C * |F n j|)),
          [fmt kd.src j "_P", fmt "VGND_" n (if F n j < 0 then "_P" else "_N")]⟩,
       ⟨"Rn_" ++ fmt2 kd.pre n j, .res (1 / (1 * C * |F n j|)),
          [fmt kd.src j "_N", fmt "VGND_" n (if F n j < 0 then "_N" else "_P")]⟩]
    else []

theorem flatMap_congr_range {α : Type*} {N : ℕ} {f g : ℕ → List α} (h : ∀ n < N, f n = g n) :
    (List.range N).flatMap f = (List.range N).flatMap g := by
  induction N with
  | zero => rfl
  | succ N ih =>
    rw [List.range_succ, List.flatMap_append, List.flatMap_append,
      ih (fun n hn => h n (by omega))]
    congr 1
    simp [h N (by omega)]

theorem map_congr_range {α : Type*} {N : ℕ} {f g : ℕ → α} (h : ∀ n < N, f n = g n) :
    (List.range N).map f = (List.range N).map g := by
  apply List.map_congr_left
  intro n hn
  exact h n (List.mem_range.mp hn)

/-- How the lines of a group of resistors come out when the terminals have the expected nodes. -/
theorem res_net (ids : String → ℕ → String) (w : Wires Obj) (kd : Kind) (N J : ℕ) (F : ℕ → ℕ → K) (C : K)
    (h : ∀ n < N, ∀ j < J, F n j ≠ 0 → ∀ (p : Bool) (k : ℕ), k < 2 →
      w.node (Obj.name ids) (.num (OaPart.res kd p n j).inst k) =
        (OaPart.res kd p n j).hubNum (fun _ n j => decide (F n j < 0)) k) :
    (parts (resistorLoop kd.pre kd.src N J F C)).map (Part.line (Obj.name ids) w) =
      resNet kd N J F C := by
  unfold resistorLoop resNet
  rw [parts_flatMap, List.map_flatMap]
  apply flatMap_congr_range
  intro n hn
  rw [parts_flatMap, List.map_flatMap]
  apply flatMap_congr_range
  intro j hj
  by_cases h0 : F n j ≠ 0
  · rw [if_pos h0, if_pos h0, pair_parts]
    have e1 := h n hn j hj h0 true 0 (by omega)
    have e2 := h n hn j hj h0 true 1 (by omega)
    have e3 := h n hn j hj h0 false 0 (by omega)
    have e4 := h n hn j hj h0 false 1 (by omega)
    simp only [OaPart.inst, OaPart.hubNum] at e1 e2 e3 e4
    simp only [List.map_cons, List.map_nil, Part.line, twoPin, nodeOrder, e1, e2, e3, e4]
    by_cases hv : F n j < 0
    · simp [hv, sfx]
    · simp [hv, sfx]
  · rw [if_neg h0, if_neg h0]
    rfl

/-! ### Integrators -/

omit [Field K] [LinearOrder K] in
theorem integrator_parts (N : ℕ) (C : K) :
    parts (opampIntegrators N C) =
      ((List.range N).map fun n =>
        (⟨fmt "Xop_" n "", .sub "opamp", opampPins.map (.pin (fmt "Xop_" n ""))⟩ : Part Obj K))
      ++ ((List.range N).map fun n => ⟨fmt "Cp_" n "", .cap C, twoPin (fmt "Cp_" n "")⟩)
      ++ ((List.range N).map fun n => ⟨fmt "Cn_" n "", .cap C, twoPin (fmt "Cn_" n "")⟩) := by
  unfold opampIntegrators
  simp only [parts_append, parts_map_add, parts_flatMap, parts, flatMap_none, List.append_nil]

omit [Field K] [LinearOrder K] in
theorem integrator_conns (N : ℕ) (C : K) :
    conns (opampIntegrators N C) =
      ((List.range N).flatMap fun n =>
        [(Obj.own (fmt "X" n "_P"), .pin (fmt "Xop_" n "") "OUT_P"),
         (.own (fmt "X" n "_N"), .pin (fmt "Xop_" n "") "OUT_N"),
         (.own (fmt "VGND_" n "_P"), .pin (fmt "Xop_" n "") "IN_P"),
         (.own (fmt "VGND_" n "_N"), .pin (fmt "Xop_" n "") "IN_N"),
         (.own "VSS", .pin (fmt "Xop_" n "") "VSS"),
         (.own "VDD", .pin (fmt "Xop_" n "") "VDD"),
         (.own "VCM", .pin (fmt "Xop_" n "") "VCM")])
      ++ ((List.range N).flatMap fun n =>
        [(.own (fmt "X" n "_P"), .num (fmt "Cp_" n "") 1),
         (.own (fmt "VGND_" n "_P"), .num (fmt "Cp_" n "") 0),
         (.own (fmt "X" n "_N"), .num (fmt "Cn_" n "") 1),
         (.own (fmt "VGND_" n "_N"), .num (fmt "Cn_" n "") 0)]) := by
  unfold opampIntegrators
  simp only [conns_append, conns_map_add, conns_flatMap, conns, List.nil_append, List.append_nil]

omit [Field K] [LinearOrder K] in
theorem integrator_conn (neg : Kind → ℕ → ℕ → Bool) (N : ℕ) (C : K) :
    ∀ c ∈ conns (opampIntegrators N C), OaConn neg c ∧ ∃ s, c.1 = .own s ∧ s ≠ "" := by
  intro c hc
  rw [integrator_conns] at hc
  simp only [List.mem_cons, List.mem_append, List.mem_flatMap, List.mem_range, List.not_mem_nil,
    or_false] at hc
  rcases hc with ⟨n, hn, rfl | rfl | rfl | rfl | rfl | rfl | rfl⟩ | ⟨n, hn, rfl | rfl | rfl | rfl⟩
  · exact ⟨Or.inl ⟨.op n, "OUT_P", rfl⟩, _, rfl, fmt_ne_empty _ _ _ (by decide)⟩
  · exact ⟨Or.inl ⟨.op n, "OUT_N", rfl⟩, _, rfl, fmt_ne_empty _ _ _ (by decide)⟩
  · exact ⟨Or.inl ⟨.op n, "IN_P", rfl⟩, _, rfl, fmt_ne_empty _ _ _ (by decide)⟩
  · exact ⟨Or.inl ⟨.op n, "IN_N", rfl⟩, _, rfl, fmt_ne_empty _ _ _ (by decide)⟩
  · exact ⟨Or.inl ⟨.op n, "VSS", rfl⟩, _, rfl, by decide⟩
  · exact ⟨Or.inl ⟨.op n, "VDD", rfl⟩, _, rfl, by decide⟩
  · exact ⟨Or.inl ⟨.op n, "VCM", rfl⟩, _, rfl, by decide⟩
  · exact ⟨Or.inr ⟨.cap true n, 1, rfl⟩, _, rfl, fmt_ne_empty _ _ _ (by decide)⟩
  · exact ⟨Or.inr ⟨.cap true n, 0, rfl⟩, _, rfl, fmt_ne_empty _ _ _ (by decide)⟩
  · exact ⟨Or.inr ⟨.cap false n, 1, rfl⟩, _, rfl, fmt_ne_empty _ _ _ (by decide)⟩
  · exact ⟨Or.inr ⟨.cap false n, 0, rfl⟩, _, rfl, fmt_ne_empty _ _ _ (by decide)⟩

/-! ### The whole frontend -/

/-- The matrix of a group. -/
def Kind.mat (S : Analog.Sys K) (G : ℕ → ℕ → K) : Kind → ℕ → ℕ → K
  | .b => S.B | .a => S.A | .g => G

/-- Which entries are negative. -/
def negOf (S : Analog.Sys K) (G : ℕ → ℕ → K) (kd : Kind) (n j : ℕ) : Bool :=
  decide (kd.mat S G n j < 0)

/-- The netlist of the op-amp frontend. -/
def oaNet (S : Analog.Sys K) (G : ℕ → ℕ → K) (C : K) : List (Line K) :=
  [⟨"Xdc", .sub "digital_control", (controlPins S.N S.L S.M).map OaPart.ctl.hubPin⟩]
    ++ resNet .b S.N S.L S.B C ++ resNet .a S.N S.N S.A C ++ resNet .g S.N S.M G C
    ++ ((List.range S.N).map fun n => ⟨fmt "Xop_" n "", .sub "opamp",
        ["VDD", "VSS", "VCM", fmt "VGND_" n "_P", fmt "VGND_" n "_N", fmt "X" n "_P", fmt "X" n "_N"]⟩)
    ++ ((List.range S.N).map fun n =>
        ⟨fmt "Cp_" n "", .cap C, [fmt "VGND_" n "_P", fmt "X" n "_P"]⟩)
    ++ ((List.range S.N).map fun n =>
        ⟨fmt "Cn_" n "", .cap C, [fmt "VGND_" n "_N", fmt "X" n "_N"]⟩)

theorem loop_conn (neg : Kind → ℕ → ℕ → Bool) (kd : Kind) (N J : ℕ) (F : ℕ → ℕ → K) (C : K)
    (hneg : ∀ n j, neg kd n j = decide (F n j < 0)) :
    ∀ c ∈ conns (resistorLoop kd.pre kd.src N J F C), OaConn neg c ∧ ∃ s, c.1 = .own s ∧ s ≠ "" := by
  intro c hc
  rw [loop_conns_mem] at hc
  obtain ⟨n, _, j, _, _, p, k, hk, rfl⟩ := hc
  have e : ∀ k, (OaPart.res kd p n j).hubNum (fun _ n j => decide (F n j < 0)) k =
      (OaPart.res kd p n j).hubNum neg k := by
    intro k
    cases k with
    | zero => rfl
    | succ k => simp only [OaPart.hubNum, hneg]
  refine ⟨Or.inr ⟨_, k, by rw [e]⟩, _, rfl, ?_⟩
  cases k with
  | zero => exact fmt_ne_empty _ _ _ (by cases kd <;> decide)
  | succ k => exact fmt_ne_empty _ _ _ (by decide)

theorem opamp_conns (S : Analog.Sys K) (G : ℕ → ℕ → K) (C : K) :
    ∀ c ∈ conns (opampOps S G C), OaConn (negOf S G) c ∧ ∃ s, c.1 = .own s ∧ s ≠ "" := by
  intro c hc
  unfold opampOps at hc
  simp only [conns_append, List.mem_append] at hc
  rcases hc with (((hc | hc) | hc) | hc) | hc
  · exact control_conns _ _ _ _ c hc
  · exact loop_conn _ .b _ _ _ _ (fun _ _ => rfl) c hc
  · exact loop_conn _ .a _ _ _ _ (fun _ _ => rfl) c hc
  · exact loop_conn _ .g _ _ _ _ (fun _ _ => rfl) c hc
  · exact integrator_conn _ _ _ c hc

/-- The parts of the frontend, in order. -/
def oaParts (S : Analog.Sys K) (G : ℕ → ℕ → K) : List OaPart :=
  let loop := fun (kd : Kind) (J : ℕ) (F : ℕ → ℕ → K) =>
    (List.range S.N).flatMap fun n => (List.range J).flatMap fun j =>
      if F n j ≠ 0 then [OaPart.res kd true n j, OaPart.res kd false n j] else []
  [.ctl] ++ loop .b S.L S.B ++ loop .a S.N S.A ++ loop .g S.M G
    ++ (List.range S.N).map .op ++ (List.range S.N).map (.cap true)
    ++ (List.range S.N).map (.cap false)

theorem loop_insts (kd : Kind) (N J : ℕ) (F : ℕ → ℕ → K) (C : K) :
    (parts (resistorLoop kd.pre kd.src N J F C)).map Part.inst =
      ((List.range N).flatMap fun n => (List.range J).flatMap fun j =>
        if F n j ≠ 0 then [OaPart.res kd true n j, OaPart.res kd false n j] else []).map
          OaPart.inst := by
  unfold resistorLoop
  rw [parts_flatMap, List.map_flatMap, List.map_flatMap]
  apply flatMap_congr_range
  intro n _
  rw [parts_flatMap, List.map_flatMap, List.map_flatMap]
  apply flatMap_congr_range
  intro j _
  by_cases h0 : F n j ≠ 0
  · rw [if_pos h0, if_pos h0, pair_parts]
    rfl
  · rw [if_neg h0, if_neg h0]
    rfl

theorem opamp_insts (S : Analog.Sys K) (G : ℕ → ℕ → K) (C : K) :
    (parts (opampOps S G C)).map Part.inst = (oaParts S G).map OaPart.inst := by
  unfold opampOps oaParts
  simp only [parts_append, List.map_append, control_parts, integrator_parts]
  rw [show "b_" = Kind.pre .b from rfl, show "IN" = Kind.src .b from rfl, loop_insts,
    show "a_" = Kind.pre .a from rfl, show resistorLoop (Kind.pre .a) "X" S.N S.N S.A C =
      resistorLoop (Kind.pre .a) (Kind.src .a) S.N S.N S.A C from rfl, loop_insts,
    show "gamma_" = Kind.pre .g from rfl, show resistorLoop (Kind.pre .g) "OUT" S.N S.M G C =
      resistorLoop (Kind.pre .g) (Kind.src .g) S.N S.M G C from rfl, loop_insts]
  simp only [List.map_map, List.map_cons, List.map_nil, List.append_assoc]
  rfl

omit [LinearOrder K] in
theorem loop_nodup [DecidableEq K] (kd : Kind) (N J : ℕ) (F : ℕ → ℕ → K) :
    ((List.range N).flatMap fun n => (List.range J).flatMap fun j =>
      if F n j ≠ 0 then [OaPart.res kd true n j, OaPart.res kd false n j] else []).Nodup := by
  apply nodup_flatMap_key N _ (fun q => match q with | .res _ _ n _ => n | _ => 0)
  · intro n
    apply nodup_flatMap_key J _ (fun q => match q with | .res _ _ _ j => j | _ => 0)
    · intro j
      split_ifs
      · simp
      · exact List.nodup_nil
    · intro j x hx
      split_ifs at hx with h
      · simp at hx
        rcases hx with rfl | rfl <;> rfl
      · cases hx
  · intro n x hx
    rw [List.mem_flatMap] at hx
    obtain ⟨j, _, hx⟩ := hx
    split_ifs at hx with h
    · simp at hx
      rcases hx with rfl | rfl <;> rfl
    · cases hx

omit [LinearOrder K] in
theorem loop_mem [DecidableEq K] {kd : Kind} {N J : ℕ} {F : ℕ → ℕ → K} {q : OaPart}
    (h : q ∈ (List.range N).flatMap fun n => (List.range J).flatMap fun j =>
      if F n j ≠ 0 then [OaPart.res kd true n j, OaPart.res kd false n j] else []) :
    ∃ p n j, q = .res kd p n j := by
  rw [List.mem_flatMap] at h
  obtain ⟨n, _, h⟩ := h
  rw [List.mem_flatMap] at h
  obtain ⟨j, _, h⟩ := h
  split_ifs at h
  · simp at h
    rcases h with rfl | rfl
    · exact ⟨true, n, j, rfl⟩
    · exact ⟨false, n, j, rfl⟩
  · cases h

theorem oaParts_nodup (S : Analog.Sys K) (G : ℕ → ℕ → K) : (oaParts S G).Nodup := by
  unfold oaParts
  dsimp only
  refine List.nodup_append.mpr ⟨List.nodup_append.mpr ⟨List.nodup_append.mpr ⟨List.nodup_append.mpr
    ⟨List.nodup_append.mpr ⟨List.nodup_append.mpr ⟨List.nodup_singleton _, loop_nodup _ _ _ _, ?_⟩,
      loop_nodup _ _ _ _, ?_⟩, loop_nodup _ _ _ _, ?_⟩, ?_, ?_⟩, ?_, ?_⟩, ?_, ?_⟩
  · intro a ha b hb
    obtain ⟨p, n, j, rfl⟩ := loop_mem hb
    simp at ha; subst ha; simp
  · intro a ha b hb
    obtain ⟨p, n, j, rfl⟩ := loop_mem hb
    rcases List.mem_append.mp ha with ha | ha
    · simp at ha; subst ha; simp
    · obtain ⟨p, n, j, rfl⟩ := loop_mem ha; simp
  · intro a ha b hb
    obtain ⟨p, n, j, rfl⟩ := loop_mem hb
    rcases List.mem_append.mp ha with ha | ha
    · rcases List.mem_append.mp ha with ha | ha
      · simp at ha; subst ha; simp
      · obtain ⟨p, n, j, rfl⟩ := loop_mem ha; simp
    · obtain ⟨p, n, j, rfl⟩ := loop_mem ha; simp
  · exact List.nodup_range.map (fun a b h => by simpa using h)
  · intro a ha b hb
    obtain ⟨n, _, rfl⟩ := List.mem_map.mp hb
    rcases List.mem_append.mp ha with ha | ha
    · rcases List.mem_append.mp ha with ha | ha
      · rcases List.mem_append.mp ha with ha | ha
        · simp at ha; subst ha; simp
        · obtain ⟨p, n, j, rfl⟩ := loop_mem ha; simp
      · obtain ⟨p, n, j, rfl⟩ := loop_mem ha; simp
    · obtain ⟨p, n, j, rfl⟩ := loop_mem ha; simp
  · exact List.nodup_range.map (fun a b h => by simpa using h)
  · intro a ha b hb
    obtain ⟨n, _, rfl⟩ := List.mem_map.mp hb
    rcases List.mem_append.mp ha with ha | ha
    · rcases List.mem_append.mp ha with ha | ha
      · rcases List.mem_append.mp ha with ha | ha
        · rcases List.mem_append.mp ha with ha | ha
          · simp at ha; subst ha; simp
          · obtain ⟨p, n, j, rfl⟩ := loop_mem ha; simp
        · obtain ⟨p, n, j, rfl⟩ := loop_mem ha; simp
      · obtain ⟨p, n, j, rfl⟩ := loop_mem ha; simp
    · obtain ⟨m, _, rfl⟩ := List.mem_map.mp ha; simp
  · exact List.nodup_range.map (fun a b h => by simpa using h)
  · intro a ha b hb
    obtain ⟨n, _, rfl⟩ := List.mem_map.mp hb
    rcases List.mem_append.mp ha with ha | ha
    · rcases List.mem_append.mp ha with ha | ha
      · rcases List.mem_append.mp ha with ha | ha
        · rcases List.mem_append.mp ha with ha | ha
          · rcases List.mem_append.mp ha with ha | ha
            · simp at ha; subst ha; simp
            · obtain ⟨p, n, j, rfl⟩ := loop_mem ha; simp
          · obtain ⟨p, n, j, rfl⟩ := loop_mem ha; simp
        · obtain ⟨p, n, j, rfl⟩ := loop_mem ha; simp
      · obtain ⟨m, _, rfl⟩ := List.mem_map.mp ha; simp
    · obtain ⟨m, _, rfl⟩ := List.mem_map.mp ha; simp

/-- The constructor succeeds and prints the expected netlist. -/
theorem opamp_netlist (ids : String → ℕ → String) (S : Analog.Sys K) (G : ℕ → ℕ → K)
    (hG : S.Gamma = some G) (C : K) :
    ∃ s, opampFrontend ids S C = .ok s ∧ s.netlist (Obj.name ids) = oaNet S G C ∧
      (s.parts.map Part.inst).Nodup := by
  have hnd : ((Sub.empty.parts ++ parts (opampOps S G C)).map Part.inst).Nodup := by
    change ((parts (opampOps S G C)).map Part.inst).Nodup
    rw [opamp_insts]
    exact (oaParts_nodup S G).map OaPart.inst_inj
  have hrun := run_eq (Obj.name ids) (opampOps S G C) .empty hnd
  refine ⟨⟨parts (opampOps S G C), Wires.connects (Obj.name ids) (conns (opampOps S G C)) .empty⟩,
    ?_, ?_, hnd⟩
  · unfold opampFrontend
    rw [hG]
    exact hrun
  · -- the node of every connected terminal is its hub
    have hc := opamp_conns S G C
    obtain ⟨w, hw⟩ : ∃ w, w = Wires.connects (Obj.name ids) (conns (opampOps S G C)) .empty := ⟨_, rfl⟩
    have node : ∀ c ∈ conns (opampOps S G C), w.node (Obj.name ids) c.2 = c.1.name ids := by
      intro c hcm
      rw [hw]
      refine (hub_node OaPart.inst_inj OaPart.hubPin (OaPart.hubNum (negOf S G)) ids _
        (fun c h => (hc c h).1) ?_ c hcm).2
      intro d hd
      obtain ⟨s, h1, h2⟩ := (hc d hd).2
      rw [h1]
      exact h2
    rw [← hw]
    unfold Sub.netlist
    dsimp only
    have hmem : ∀ c, c ∈ conns (opampOps S G C) ↔
        ((((c ∈ conns (controlOps "OUT" S.N S.L S.M : List (Op Obj K)) ∨
          c ∈ conns (resistorLoop "b_" "IN" S.N S.L S.B C)) ∨
          c ∈ conns (resistorLoop "a_" "X" S.N S.N S.A C)) ∨
          c ∈ conns (resistorLoop "gamma_" "OUT" S.N S.M G C)) ∨
          c ∈ conns (opampIntegrators S.N C)) := by
      intro c
      unfold opampOps
      simp only [conns_append, List.mem_append]
    unfold opampOps oaNet
    simp only [parts_append, List.map_append, control_parts, integrator_parts]
    have r1 := res_net ids w .b S.N S.L S.B C (by
      intro n hn j hj h0 p k hk
      exact node (_, _) ((hmem _).mpr (Or.inl (Or.inl (Or.inl (Or.inr
        ((loop_conns_mem .b S.N S.L S.B C _).mpr ⟨n, hn, j, hj, h0, p, k, hk, rfl⟩)))))))
    have r2 := res_net ids w .a S.N S.N S.A C (by
      intro n hn j hj h0 p k hk
      exact node (_, _) ((hmem _).mpr (Or.inl (Or.inl (Or.inr
        ((loop_conns_mem .a S.N S.N S.A C _).mpr ⟨n, hn, j, hj, h0, p, k, hk, rfl⟩))))))
    have r3 := res_net ids w .g S.N S.M G C (by
      intro n hn j hj h0 p k hk
      exact node (_, _) ((hmem _).mpr (Or.inl (Or.inr
        ((loop_conns_mem .g S.N S.M G C _).mpr ⟨n, hn, j, hj, h0, p, k, hk, rfl⟩)))))
    have i1 : ∀ n < S.N, ∀ c, c ∈ ([(Obj.own (fmt "X" n "_P"), .pin (fmt "Xop_" n "") "OUT_P"),
         (.own (fmt "X" n "_N"), .pin (fmt "Xop_" n "") "OUT_N"),
         (.own (fmt "VGND_" n "_P"), .pin (fmt "Xop_" n "") "IN_P"),
         (.own (fmt "VGND_" n "_N"), .pin (fmt "Xop_" n "") "IN_N"),
         (.own "VSS", .pin (fmt "Xop_" n "") "VSS"),
         (.own "VDD", .pin (fmt "Xop_" n "") "VDD"),
         (.own "VCM", .pin (fmt "Xop_" n "") "VCM")] : List (Obj × Obj)) →
         w.node (Obj.name ids) c.2 = c.1.name ids := by
      intro n hn c hcm
      apply node c
      rw [hmem, integrator_conns]
      exact Or.inr (List.mem_append_left _ (List.mem_flatMap.mpr ⟨n, List.mem_range.mpr hn, hcm⟩))
    have i2 : ∀ n < S.N, ∀ c, c ∈ ([(.own (fmt "X" n "_P"), .num (fmt "Cp_" n "") 1),
         (.own (fmt "VGND_" n "_P"), .num (fmt "Cp_" n "") 0),
         (.own (fmt "X" n "_N"), .num (fmt "Cn_" n "") 1),
         (.own (fmt "VGND_" n "_N"), .num (fmt "Cn_" n "") 0)] : List (Obj × Obj)) →
         w.node (Obj.name ids) c.2 = c.1.name ids := by
      intro n hn c hcm
      apply node c
      rw [hmem, integrator_conns]
      exact Or.inr (List.mem_append_right _ (List.mem_flatMap.mpr ⟨n, List.mem_range.mpr hn, hcm⟩))
    have c1 : (controlPins S.N S.L S.M).map (fun s => w.node (Obj.name ids) (.pin "Xdc" s)) =
        (controlPins S.N S.L S.M).map OaPart.ctl.hubPin := by
      apply List.map_congr_left
      intro s hs
      exact node (_, _) ((hmem _).mpr (Or.inl (Or.inl (Or.inl (Or.inl (control_mem _ _ _ s hs))))))
    have e1 : (parts (resistorLoop "b_" "IN" S.N S.L S.B C)).map (Part.line (Obj.name ids) w) = _ := r1
    have e2 : (parts (resistorLoop "a_" "X" S.N S.N S.A C)).map (Part.line (Obj.name ids) w) = _ := r2
    have e3 : (parts (resistorLoop "gamma_" "OUT" S.N S.M G C)).map (Part.line (Obj.name ids) w) = _ := r3
    rw [e1, e2, e3]
    simp only [List.map_map, List.map_cons, List.map_nil, List.append_assoc]
    congr 1
    · simp only [Part.line, nodeOrder, List.map_map]
      congr 1
      congr 1
    · congr 1
      congr 1
      congr 1
      congr 1
      · apply map_congr_range
        intro n hn
        have h := i1 n hn
        simp only [List.forall_mem_cons] at h
        obtain ⟨h1, h2, h3, h4, h5, h6, h7, _⟩ := h
        simp only [Obj.name] at h1 h2 h3 h4 h5 h6 h7
        simp [Part.line, nodeOrder, opampPins, h1, h2, h3, h4, h5, h6, h7]
      · congr 1
        · apply map_congr_range
          intro n hn
          have h := i2 n hn
          simp only [List.forall_mem_cons] at h
          obtain ⟨h1, h2, h3, h4, _⟩ := h
          simp only [Obj.name] at h1 h2 h3 h4
          simp [Part.line, nodeOrder, twoPin, h1, h2]
        · apply map_congr_range
          intro n hn
          have h := i2 n hn
          simp only [List.forall_mem_cons] at h
          obtain ⟨h1, h2, h3, h4, _⟩ := h
          simp only [Obj.name] at h1 h2 h3 h4
          simp [Part.line, nodeOrder, twoPin, h3, h4]

end

end Cbadc.Circuit
