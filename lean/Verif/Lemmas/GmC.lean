import Verif.Lemmas.OpAmp

/-! # The netlist of the Gm-C frontend -/

namespace Cbadc.Circuit

open Spec

/-- The sub-circuit's own terminals are printed under their own names. -/
theorem hub_own {Q : Type} {inst : Q → String} (hinj : Function.Injective inst)
    (hp : Q → String → String) (hn : Q → ℕ → String) (ids : String → ℕ → String)
    (cs : List (Obj × Obj))
    (h : ∀ c ∈ cs, (∃ q s, c = (.own (hp q s), .pin (inst q) s)) ∨
      ∃ q k, c = (.own (hn q k), .num (inst q) k))
    (hne : ∀ c ∈ cs, c.1.name ids ≠ "") (s : String) :
    (Wires.connects (Obj.name ids) cs .empty).node (Obj.name ids) (.own s) = s := by
  by_cases ht : Touched cs (.own s)
  · obtain ⟨c, hc, e | e⟩ := ht
    · have := (hub_node hinj hp hn ids cs h hne c hc).1
      rw [← e] at this
      exact this
    · rcases h c hc with ⟨q, r, rfl⟩ | ⟨q, r, rfl⟩ <;> cases e
  · have I := starInv_connects (Obj.name ids) cs (hub_star hinj hp hn cs h) hne
    have : (Wires.connects (Obj.name ids) cs .empty).port (.own s) = none := by
      have := (I.touched (.own s)).not.mpr ht
      simpa using this
    unfold Wires.node
    rw [this]
    rfl

/-! ## One transconductor -/

/-- Prefix of the instance names of a group of transconductors. -/
def Kind.gpre : Kind → String
  | .b => "G_b_" | .a => "G_a_" | .g => "G_gamma_"

/-- Sources of a group of transconductors. -/
def Kind.pin : Kind → String
  | .b => "IN" | .a => "X" | .g => "S"

/-- The parts of a multi-input transconductor. -/
inductive MoPart
  | ota (kd : Kind) (j : ℕ)
  | res (p : Bool)

/-- The instance names. -/
def MoPart.inst (k : ℕ) : MoPart → String
  | .ota kd j => fmt2 kd.gpre k j
  | .res true => "Rp"
  | .res false => "Rn"

theorem MoPart.inst_inj (k : ℕ) : Function.Injective (MoPart.inst k) := by
  intro x y h
  rcases x with ⟨k1, j1⟩ | p1 <;> rcases y with ⟨k2, j2⟩ | p2 <;>
    (try cases p1) <;> (try cases p2) <;> (try cases k1) <;> (try cases k2) <;>
    simp only [MoPart.inst, Kind.gpre] at h <;>
    first
      | rfl
      | (names at h; done)
      | (names at h; rw [h])

/-- The hub of a named pin. -/
def MoPart.hubPin (k : ℕ) (neg : Kind → ℕ → Bool) : MoPart → String → String
  | .ota kd j, s =>
    if s = "OUT_P" then fmt "X" k "_P" else if s = "OUT_N" then fmt "X" k "_N"
    else if s = "IN_P" then fmt kd.pin j (if neg kd j then "_P" else "_N")
    else if s = "IN_N" then fmt kd.pin j (if neg kd j then "_N" else "_P")
    else s
  | _, s => s

/-- The hub of a numbered terminal. -/
def MoPart.hubNum (k : ℕ) : MoPart → ℕ → String
  | .res true, 0 => fmt "X" k "_P"
  | .res true, _ => "VCM"
  | .res false, 0 => "VCM"
  | .res false, _ => fmt "X" k "_N"
  | _, _ => "?"

/-- A connection to the right hub. -/
def MoConn (k : ℕ) (neg : Kind → ℕ → Bool) (c : Obj × Obj) : Prop :=
  (∃ (q : MoPart) (s : String), c = (.own (q.hubPin k neg s), .pin (q.inst k) s)) ∨
    ∃ (q : MoPart) (j : ℕ), c = (.own (q.hubNum k j), .num (q.inst k) j)

section

variable {K : Type*} [Field K] [LinearOrder K]

/-- The six connections of a transconductor. -/
def couplingConns (k : ℕ) (kd : Kind) (j : ℕ) (v : Bool) : List (Obj × Obj) :=
  ["VSS", "VDD", "OUT_P", "OUT_N", "IN_P", "IN_N"].map fun s =>
    (.own ((MoPart.ota kd j).hubPin k (fun _ _ => v) s), .pin ((MoPart.ota kd j).inst k) s)

theorem coupling_conns (gm : K) (k : ℕ) (kd : Kind) (j : ℕ) (c : Obj × Obj) :
    c ∈ conns (otaCoupling gm (fmt2 kd.gpre k j) (.own (fmt kd.pin j "_P")) (.own (fmt kd.pin j "_N"))
        (.own (fmt "X" k "_P")) (.own (fmt "X" k "_N"))) ↔
      c ∈ couplingConns k kd j (decide (gm < 0)) := by
  unfold otaCoupling couplingConns
  by_cases h : gm < 0
  · simp [h, conns, MoPart.hubPin, MoPart.inst]
  · simp [h, conns, MoPart.hubPin, MoPart.inst, or_comm, or_assoc]

theorem coupling_parts (gm : K) (e : String) (a b c d : Obj) :
    parts (otaCoupling gm e a b c d) = [⟨e, .vccs |gm|, otaPins.map (.pin e)⟩] := by
  unfold otaCoupling
  by_cases h : gm < 0
  · simp only [if_pos h]
    rfl
  · simp only [if_neg h]
    rfl

theorem otaLoop_conns (k : ℕ) (kd : Kind) (J : ℕ) (F : ℕ → K) (C : K) (c : Obj × Obj) :
    c ∈ conns (otaLoop kd.gpre kd.pin k J F C) ↔
      ∃ j < J, F j ≠ 0 ∧ c ∈ couplingConns k kd j (decide (F j * C < 0)) := by
  unfold otaLoop
  rw [conns_flatMap, List.mem_flatMap]
  constructor
  · rintro ⟨j, hj, hc⟩
    by_cases h0 : F j ≠ 0
    · rw [if_pos h0, coupling_conns] at hc
      exact ⟨j, List.mem_range.mp hj, h0, hc⟩
    · rw [if_neg h0] at hc
      cases hc
  · rintro ⟨j, hj, h0, hc⟩
    refine ⟨j, List.mem_range.mpr hj, ?_⟩
    rw [if_pos h0, coupling_conns]
    exact hc

/-- The lines of a group of transconductors. -/
def otaNet (k : ℕ) (kd : Kind) (J : ℕ) (F : ℕ → K) (C : K) : List (Line K) :=
  (List.range J).flatMap fun j =>
    if F j ≠ 0 then
      [⟨fmt2 kd.gpre k j, .vccs |F j * C|, [fmt "X" k "_P", fmt "X" k "_N",
        fmt kd.pin j (if F j * C < 0 then "_P" else "_N"),
        fmt kd.pin j (if F j * C < 0 then "_N" else "_P")]⟩]
    else []

/-- The lines of the resistors for the finite gain. -/
def gainNet (k : ℕ) (b C : K) : Option K → List (Line K)
  | none => []
  | some g =>
    [⟨"Rp", .res (2 * (g / (b * C))), [fmt "X" k "_P", "VCM"]⟩,
     ⟨"Rn", .res (2 * (g / (b * C))), ["VCM", fmt "X" k "_N"]⟩]

/-- The body of the definition of a multi-input transconductor. -/
def moNet (S : Analog.Sys K) (G : ℕ → ℕ → K) (k : ℕ) (C : K) (gain : Option K) : List (Line K) :=
  otaNet k .a S.N (S.A k) C ++ otaNet k .b S.L (S.B k) C ++ otaNet k .g S.M (G k) C
    ++ gainNet k (absMax S.N S.L S.B) C gain

/-- The row of a group. -/
def Kind.row (S : Analog.Sys K) (G : ℕ → ℕ → K) (k : ℕ) : Kind → ℕ → K
  | .b => S.B k | .a => S.A k | .g => G k

/-- The parts of the transconductor, in order. -/
def moParts (S : Analog.Sys K) (G : ℕ → ℕ → K) (k : ℕ) (gain : Option K) : List MoPart :=
  let loop := fun (kd : Kind) (J : ℕ) (F : ℕ → K) =>
    (List.range J).flatMap fun j => if F j ≠ 0 then [MoPart.ota kd j] else []
  loop .a S.N (S.A k) ++ loop .b S.L (S.B k) ++ loop .g S.M (G k)
    ++ (if gain = none then [] else [.res true, .res false])

theorem otaLoop_insts (k : ℕ) (kd : Kind) (J : ℕ) (F : ℕ → K) (C : K) :
    (parts (otaLoop kd.gpre kd.pin k J F C)).map Part.inst =
      ((List.range J).flatMap fun j => if F j ≠ 0 then [MoPart.ota kd j] else []).map
        (MoPart.inst k) := by
  unfold otaLoop
  rw [parts_flatMap, List.map_flatMap, List.map_flatMap]
  apply flatMap_congr_range
  intro j _
  by_cases h0 : F j ≠ 0
  · rw [if_pos h0, if_pos h0, coupling_parts]
    rfl
  · rw [if_neg h0, if_neg h0]
    rfl

theorem mo_insts (S : Analog.Sys K) (G : ℕ → ℕ → K) (k : ℕ) (C b : K) (gain : Option K) :
    (parts (multiOtaOps S G k C b gain)).map Part.inst =
      (moParts S G k gain).map (MoPart.inst k) := by
  unfold multiOtaOps moParts
  simp only [parts_append, List.map_append]
  have e1 := otaLoop_insts k .a S.N (S.A k) C
  have e2 := otaLoop_insts k .b S.L (S.B k) C
  have e3 := otaLoop_insts k .g S.M (G k) C
  simp only [Kind.gpre, Kind.pin] at e1 e2 e3
  rw [e1, e2, e3]
  congr 1
  rcases gain with _ | g
  · rfl
  · rfl

omit [LinearOrder K] in
theorem moLoop_nodup [DecidableEq K] (kd : Kind) (J : ℕ) (F : ℕ → K) :
    ((List.range J).flatMap fun j => if F j ≠ 0 then [MoPart.ota kd j] else []).Nodup := by
  apply nodup_flatMap_key J _ (fun q => match q with | .ota _ j => j | _ => 0)
  · intro j
    split_ifs <;> simp
  · intro j x hx
    split_ifs at hx
    · simp at hx; subst hx; rfl
    · cases hx

omit [LinearOrder K] in
theorem moLoop_mem [DecidableEq K] {kd : Kind} {J : ℕ} {F : ℕ → K} {q : MoPart}
    (h : q ∈ (List.range J).flatMap fun j => if F j ≠ 0 then [MoPart.ota kd j] else []) :
    ∃ j, q = .ota kd j := by
  rw [List.mem_flatMap] at h
  obtain ⟨j, _, h⟩ := h
  split_ifs at h
  · simp at h; exact ⟨j, h⟩
  · cases h

theorem moParts_nodup (S : Analog.Sys K) (G : ℕ → ℕ → K) (k : ℕ) (gain : Option K) :
    (moParts S G k gain).Nodup := by
  unfold moParts
  dsimp only
  refine List.nodup_append.mpr ⟨List.nodup_append.mpr ⟨List.nodup_append.mpr
    ⟨moLoop_nodup _ _ _, moLoop_nodup _ _ _, ?_⟩, moLoop_nodup _ _ _, ?_⟩, ?_, ?_⟩
  · intro a ha b hb
    obtain ⟨i, rfl⟩ := moLoop_mem ha
    obtain ⟨j, rfl⟩ := moLoop_mem hb
    simp
  · intro a ha b hb
    obtain ⟨j, rfl⟩ := moLoop_mem hb
    rcases List.mem_append.mp ha with ha | ha
    · obtain ⟨i, rfl⟩ := moLoop_mem ha; simp
    · obtain ⟨i, rfl⟩ := moLoop_mem ha; simp
  · split_ifs <;> simp
  · intro a ha b hb
    have hb' : ∃ p, b = .res p := by
      split_ifs at hb
      · cases hb
      · simp at hb
        rcases hb with rfl | rfl
        · exact ⟨_, rfl⟩
        · exact ⟨_, rfl⟩
    obtain ⟨p, rfl⟩ := hb'
    rcases List.mem_append.mp ha with ha | ha
    · rcases List.mem_append.mp ha with ha | ha
      · obtain ⟨i, rfl⟩ := moLoop_mem ha; simp
      · obtain ⟨i, rfl⟩ := moLoop_mem ha; simp
    · obtain ⟨i, rfl⟩ := moLoop_mem ha; simp

omit [LinearOrder K] in
theorem gain_conns (k : ℕ) (b C : K) (gain : Option K) (c : Obj × Obj)
    (hc : c ∈ conns (otaGain k b C gain)) (neg : Kind → ℕ → Bool) :
    MoConn k neg c ∧ ∃ s, c.1 = .own s ∧ s ≠ "" := by
  rcases gain with _ | g
  · cases hc
  · simp only [otaGain, conns, List.mem_cons, List.not_mem_nil, or_false] at hc
    rcases hc with rfl | rfl | rfl | rfl
    · exact ⟨Or.inr ⟨.res true, 0, rfl⟩, _, rfl, fmt_ne_empty _ _ _ (by decide)⟩
    · exact ⟨Or.inr ⟨.res false, 1, rfl⟩, _, rfl, fmt_ne_empty _ _ _ (by decide)⟩
    · exact ⟨Or.inr ⟨.res true, 1, rfl⟩, _, rfl, by decide⟩
    · exact ⟨Or.inr ⟨.res false, 0, rfl⟩, _, rfl, by decide⟩

theorem coupling_conn (k : ℕ) (kd : Kind) (j : ℕ) (v : Bool) (neg : Kind → ℕ → Bool)
    (hv : neg kd j = v) (c : Obj × Obj) (hc : c ∈ couplingConns k kd j v) :
    MoConn k neg c ∧ ∃ s, c.1 = .own s ∧ s ≠ "" := by
  unfold couplingConns at hc
  obtain ⟨s, hs, rfl⟩ := List.mem_map.mp hc
  refine ⟨Or.inl ⟨.ota kd j, s, ?_⟩, _, rfl, ?_⟩
  · simp only [MoPart.hubPin, hv]
  · have hk : kd.pin ≠ "" := by cases kd <;> decide
    fin_cases hs <;> simp [MoPart.hubPin] <;> first | decide | exact fmt_ne_empty _ _ _ (by first | decide | exact hk)

theorem mo_conns (S : Analog.Sys K) (G : ℕ → ℕ → K) (k : ℕ) (C b : K) (gain : Option K) :
    ∀ c ∈ conns (multiOtaOps S G k C b gain),
      MoConn k (fun kd j => decide (kd.row S G k j * C < 0)) c ∧ ∃ s, c.1 = .own s ∧ s ≠ "" := by
  intro c hc
  unfold multiOtaOps at hc
  simp only [conns_append, List.mem_append] at hc
  rcases hc with ((hc | hc) | hc) | hc
  · obtain ⟨j, _, _, h⟩ := (otaLoop_conns k .a S.N (S.A k) C c).mp hc
    exact coupling_conn k .a j _ _ rfl c h
  · obtain ⟨j, _, _, h⟩ := (otaLoop_conns k .b S.L (S.B k) C c).mp hc
    exact coupling_conn k .b j _ _ rfl c h
  · obtain ⟨j, _, _, h⟩ := (otaLoop_conns k .g S.M (G k) C c).mp hc
    exact coupling_conn k .g j _ _ rfl c h
  · exact gain_conns k b C gain c hc _

/-- How the lines of a group of transconductors come out. -/
theorem ota_net (ids : String → ℕ → String) (w : Wires Obj) (k : ℕ) (kd : Kind) (J : ℕ) (F : ℕ → K)
    (C : K) (h : ∀ j < J, F j ≠ 0 → ∀ c ∈ couplingConns k kd j (decide (F j * C < 0)),
      w.node (Obj.name ids) c.2 = c.1.name ids) :
    (parts (otaLoop kd.gpre kd.pin k J F C)).map (Part.line (Obj.name ids) w) =
      otaNet k kd J F C := by
  unfold otaLoop otaNet
  rw [parts_flatMap, List.map_flatMap]
  apply flatMap_congr_range
  intro j hj
  by_cases h0 : F j ≠ 0
  · rw [if_pos h0, if_pos h0, coupling_parts]
    have h' := h j hj h0
    unfold couplingConns at h'
    simp only [List.map_cons, List.map_nil, List.forall_mem_cons] at h'
    obtain ⟨_, _, h1, h2, h3, h4, _⟩ := h'
    simp [MoPart.hubPin, MoPart.inst, Obj.name] at h1 h2 h3 h4
    simp [Part.line, nodeOrder, otaPins, h1, h2, h3, h4]
  · rw [if_neg h0, if_neg h0]
    rfl

/-- The constructor of the transconductor succeeds and prints the expected definition. -/
theorem multiOta_def (ids : String → ℕ → String) (S : Analog.Sys K) (G : ℕ → ℕ → K)
    (hG : S.Gamma = some G) (k : ℕ) (C : K) (gain : Option K)
    (hg : gain ≠ none → absMax S.N S.L S.B * C ≠ 0) :
    multiOta ids S k C gain = .ok ⟨multiOtaPins S.N S.L S.M, moNet S G k C gain⟩ := by
  have hnd : ((Sub.empty.parts ++ parts (multiOtaOps S G k C (absMax S.N S.L S.B) gain)).map
      Part.inst).Nodup := by
    change ((parts (multiOtaOps S G k C (absMax S.N S.L S.B) gain)).map Part.inst).Nodup
    rw [mo_insts]
    exact (moParts_nodup S G k gain).map (MoPart.inst_inj k)
  have hrun := run_eq (Obj.name ids) (multiOtaOps S G k C (absMax S.N S.L S.B) gain) .empty hnd
  have hc := mo_conns S G k C (absMax S.N S.L S.B) gain
  unfold multiOta
  rw [hG]
  dsimp only
  rw [if_neg (fun h => hg h.1 h.2), hrun]
  dsimp only
  congr 1
  unfold Sub.definition
  dsimp only
  have hne : ∀ c ∈ conns (multiOtaOps S G k C (absMax S.N S.L S.B) gain), c.1.name ids ≠ "" := by
    intro d hd
    obtain ⟨s, h1, h2⟩ := (hc d hd).2
    rw [h1]
    exact h2
  congr 1
  · conv_rhs => rw [← List.map_id (multiOtaPins S.N S.L S.M)]
    apply List.map_congr_left
    intro s _
    exact hub_own (MoPart.inst_inj k) _ _ ids _ (fun c h => (hc c h).1) hne s
  · obtain ⟨w, hw⟩ : ∃ w, w = Wires.connects (Obj.name ids)
      (conns (multiOtaOps S G k C (absMax S.N S.L S.B) gain)) .empty := ⟨_, rfl⟩
    have node : ∀ c ∈ conns (multiOtaOps S G k C (absMax S.N S.L S.B) gain),
        w.node (Obj.name ids) c.2 = c.1.name ids := by
      intro c hcm
      rw [hw]
      exact (hub_node (MoPart.inst_inj k) _ _ ids _ (fun c h => (hc c h).1) hne c hcm).2
    change (parts (multiOtaOps S G k C (absMax S.N S.L S.B) gain)).map
      (Part.line (Obj.name ids) (Wires.connects (Obj.name ids)
      (conns (multiOtaOps S G k C (absMax S.N S.L S.B) gain)) .empty)) = _
    rw [← hw]
    have hmem : ∀ c, c ∈ conns (multiOtaOps S G k C (absMax S.N S.L S.B) gain) ↔
        (((c ∈ conns (otaLoop "G_a_" "X" k S.N (S.A k) C) ∨
          c ∈ conns (otaLoop "G_b_" "IN" k S.L (S.B k) C)) ∨
          c ∈ conns (otaLoop "G_gamma_" "S" k S.M (G k) C)) ∨
          c ∈ conns (otaGain k (absMax S.N S.L S.B) C gain)) := by
      intro c
      unfold multiOtaOps
      simp only [conns_append, List.mem_append]
    have r1 := ota_net ids w k .a S.N (S.A k) C (fun j hj h0 c hcc => node c ((hmem c).mpr
      (Or.inl (Or.inl (Or.inl ((otaLoop_conns k .a S.N (S.A k) C c).mpr ⟨j, hj, h0, hcc⟩))))))
    have r2 := ota_net ids w k .b S.L (S.B k) C (fun j hj h0 c hcc => node c ((hmem c).mpr
      (Or.inl (Or.inl (Or.inr ((otaLoop_conns k .b S.L (S.B k) C c).mpr ⟨j, hj, h0, hcc⟩))))))
    have r3 := ota_net ids w k .g S.M (G k) C (fun j hj h0 c hcc => node c ((hmem c).mpr
      (Or.inl (Or.inr ((otaLoop_conns k .g S.M (G k) C c).mpr ⟨j, hj, h0, hcc⟩)))))
    simp only [Kind.gpre, Kind.pin] at r1 r2 r3
    unfold multiOtaOps moNet
    simp only [parts_append, List.map_append]
    rw [r1, r2, r3]
    congr 1
    rcases gain with _ | g
    · rfl
    · have n4 : ∀ c ∈ conns (otaGain k (absMax S.N S.L S.B) C (some g)),
          w.node (Obj.name ids) c.2 = c.1.name ids := fun c h => node c ((hmem c).mpr (Or.inr h))
      simp only [otaGain, conns, List.forall_mem_cons] at n4
      obtain ⟨h1, h2, h3, h4, _⟩ := n4
      simp only [Obj.name] at h1 h2 h3 h4
      simp [otaGain, parts, gainNet, Part.line, nodeOrder, twoPin, h1, h2, h3, h4]

/-! ## The frontend -/

/-- The parts of the Gm-C frontend. -/
inductive GmPart
  | ctl
  | gm (n : ℕ)
  | cap (p : Bool) (n : ℕ)

/-- The instance names. -/
def GmPart.inst : GmPart → String
  | .ctl => "Xdc"
  | .gm n => fmt "Xgm" n ""
  | .cap true n => fmt "Cp_" n ""
  | .cap false n => fmt "Cn_" n ""

theorem GmPart.inst_inj : Function.Injective GmPart.inst := by
  intro x y h
  rcases x with _ | n1 | ⟨p1, n1⟩ <;> rcases y with _ | n2 | ⟨p2, n2⟩ <;>
    (try cases p1) <;> (try cases p2) <;> simp only [GmPart.inst] at h <;>
    first
      | rfl
      | (names at h; done)
      | (names at h; rw [h])

/-- The hub of a named pin. -/
def GmPart.hubPin (_ : GmPart) (s : String) : String := OaPart.ctl.hubPin s

/-- The hub of a numbered terminal. -/
def GmPart.hubNum : GmPart → ℕ → String
  | .cap true n, 0 => fmt "X" n "_P"
  | .cap true _, _ => "VCM"
  | .cap false _, 0 => "VCM"
  | .cap false n, _ => fmt "X" n "_N"
  | _, _ => "?"

/-- A connection to the right hub. -/
def GmConn (c : Obj × Obj) : Prop :=
  (∃ (q : GmPart) (s : String), c = (.own (q.hubPin s), .pin q.inst s)) ∨
    ∃ (q : GmPart) (k : ℕ), c = (.own (q.hubNum k), .num q.inst k)

omit [Field K] [LinearOrder K] in
theorem control_gm (N L M : ℕ) :
    ∀ c ∈ conns (controlOps "OUT" N L M : List (Op Obj K)), GmConn c ∧ ∃ s, c.1 = .own s ∧ s ≠ "" := by
  intro c hc
  simp only [controlOps, List.map_cons, List.map_nil, List.cons_append, List.nil_append,
    conns, conns_append, conns_flatMap, List.mem_cons, List.mem_append, List.mem_flatMap,
    List.mem_range, List.not_mem_nil, or_false] at hc
  rcases hc with rfl | rfl | rfl | rfl | ((⟨n, hn, rfl | rfl⟩) | ⟨n, hn, rfl | rfl⟩) |
    ⟨n, hn, rfl | rfl⟩
  · exact ⟨Or.inl ⟨.ctl, "VSS", rfl⟩, _, rfl, by decide⟩
  · exact ⟨Or.inl ⟨.ctl, "VDD", rfl⟩, _, rfl, by decide⟩
  · exact ⟨Or.inl ⟨.ctl, "CLK", rfl⟩, _, rfl, by decide⟩
  · exact ⟨Or.inl ⟨.ctl, "VCM", rfl⟩, _, rfl, by decide⟩
  · exact ⟨Or.inl ⟨.ctl, fmt "X" n "_P", by unfold GmPart.hubPin; rw [hubPin_x]; rfl⟩, _, rfl,
      fmt_ne_empty _ _ _ (by decide)⟩
  · exact ⟨Or.inl ⟨.ctl, fmt "X" n "_N", by unfold GmPart.hubPin; rw [hubPin_x]; rfl⟩, _, rfl,
      fmt_ne_empty _ _ _ (by decide)⟩
  · exact ⟨Or.inl ⟨.ctl, fmt "IN" n "_P", by unfold GmPart.hubPin; rw [hubPin_in]; rfl⟩, _, rfl,
      fmt_ne_empty _ _ _ (by decide)⟩
  · exact ⟨Or.inl ⟨.ctl, fmt "IN" n "_N", by unfold GmPart.hubPin; rw [hubPin_in]; rfl⟩, _, rfl,
      fmt_ne_empty _ _ _ (by decide)⟩
  · exact ⟨Or.inl ⟨.ctl, fmt "S" n "_P", by unfold GmPart.hubPin; rw [hubPin_s]; rfl⟩, _, rfl,
      fmt_ne_empty _ _ _ (by decide)⟩
  · exact ⟨Or.inl ⟨.ctl, fmt "S" n "_N", by unfold GmPart.hubPin; rw [hubPin_s]; rfl⟩, _, rfl,
      fmt_ne_empty _ _ _ (by decide)⟩

theorem pins_mem (N L M : ℕ) (s : String) : s ∈ multiOtaPins N L M ↔
    s = "VSS" ∨ s = "VDD" ∨ s = "VCM" ∨ (∃ n < N, ∃ p, s = fmt "X" n (sfx p)) ∨
      (∃ n < L, ∃ p, s = fmt "IN" n (sfx p)) ∨ ∃ n < M, ∃ p, s = fmt "S" n (sfx p) := by
  simp only [multiOtaPins, List.mem_cons, List.mem_append, List.mem_range, List.mem_map,
    List.cons_append, List.nil_append]
  constructor
  · rintro (h | h | h | (((((⟨n, hn, rfl⟩ | ⟨n, hn, rfl⟩) | ⟨n, hn, rfl⟩) | ⟨n, hn, rfl⟩) |
      ⟨n, hn, rfl⟩) | ⟨n, hn, rfl⟩))
    · exact Or.inl h
    · exact Or.inr (Or.inl h)
    · exact Or.inr (Or.inr (Or.inl h))
    · exact Or.inr (Or.inr (Or.inr (Or.inl ⟨n, hn, true, rfl⟩)))
    · exact Or.inr (Or.inr (Or.inr (Or.inl ⟨n, hn, false, rfl⟩)))
    · exact Or.inr (Or.inr (Or.inr (Or.inr (Or.inl ⟨n, hn, true, rfl⟩))))
    · exact Or.inr (Or.inr (Or.inr (Or.inr (Or.inl ⟨n, hn, false, rfl⟩))))
    · exact Or.inr (Or.inr (Or.inr (Or.inr (Or.inr ⟨n, hn, true, rfl⟩))))
    · exact Or.inr (Or.inr (Or.inr (Or.inr (Or.inr ⟨n, hn, false, rfl⟩))))
  · rintro (h | h | h | ⟨n, hn, p, rfl⟩ | ⟨n, hn, p, rfl⟩ | ⟨n, hn, p, rfl⟩)
    · exact Or.inl h
    · exact Or.inr (Or.inl h)
    · exact Or.inr (Or.inr (Or.inl h))
    · refine Or.inr (Or.inr (Or.inr (Or.inl (Or.inl (Or.inl (Or.inl ?_))))))
      cases p
      · exact Or.inr ⟨n, hn, rfl⟩
      · exact Or.inl ⟨n, hn, rfl⟩
    · refine Or.inr (Or.inr (Or.inr (Or.inl ?_)))
      cases p
      · exact Or.inl (Or.inr ⟨n, hn, rfl⟩)
      · exact Or.inl (Or.inl (Or.inr ⟨n, hn, rfl⟩))
    · refine Or.inr (Or.inr (Or.inr ?_))
      cases p
      · exact Or.inr ⟨n, hn, rfl⟩
      · exact Or.inl (Or.inr ⟨n, hn, rfl⟩)

omit [LinearOrder K] in
/-- The connections of one integrator. -/
theorem state_conns (N L M n : ℕ) (C : K) (c : Obj × Obj) :
    c ∈ conns (gmcState N L M n C) ↔
      (∃ s ∈ multiOtaPins N L M, c = (.own (OaPart.ctl.hubPin s), .pin (fmt "Xgm" n "") s)) ∨
      c = (.own (fmt "X" n "_P"), .num (fmt "Cp_" n "") 0) ∨
      c = (.own "VCM", .num (fmt "Cp_" n "") 1) ∨
      c = (.own (fmt "X" n "_N"), .num (fmt "Cn_" n "") 1) ∨
      c = (.own "VCM", .num (fmt "Cn_" n "") 0) := by
  simp only [gmcState, List.map_cons, List.map_nil, List.cons_append, List.nil_append,
    conns, conns_append, conns_flatMap, List.mem_cons, List.mem_append, List.mem_flatMap,
    List.mem_range, List.not_mem_nil, or_false]
  have e1 : OaPart.ctl.hubPin "VSS" = "VSS" := by decide
  have e2 : OaPart.ctl.hubPin "VDD" = "VDD" := by decide
  have e3 : OaPart.ctl.hubPin "VCM" = "VCM" := by decide
  constructor
  · rintro (rfl | rfl | rfl | (((⟨j, hj, rfl | rfl⟩ | ⟨j, hj, rfl | rfl⟩) | ⟨j, hj, rfl | rfl⟩) | h))
    · exact Or.inl ⟨"VSS", (pins_mem N L M _).mpr (Or.inl rfl), by rw [e1]⟩
    · exact Or.inl ⟨"VDD", (pins_mem N L M _).mpr (Or.inr (Or.inl rfl)), by rw [e2]⟩
    · exact Or.inl ⟨"VCM", (pins_mem N L M _).mpr (Or.inr (Or.inr (Or.inl rfl))), by rw [e3]⟩
    · exact Or.inl ⟨fmt "X" j "_P", (pins_mem N L M _).mpr
        (Or.inr (Or.inr (Or.inr (Or.inl ⟨j, hj, true, rfl⟩)))), by rw [hubPin_x]⟩
    · exact Or.inl ⟨fmt "X" j "_N", (pins_mem N L M _).mpr
        (Or.inr (Or.inr (Or.inr (Or.inl ⟨j, hj, false, rfl⟩)))), by rw [hubPin_x]⟩
    · exact Or.inl ⟨fmt "IN" j "_P", (pins_mem N L M _).mpr
        (Or.inr (Or.inr (Or.inr (Or.inr (Or.inl ⟨j, hj, true, rfl⟩))))), by rw [hubPin_in]⟩
    · exact Or.inl ⟨fmt "IN" j "_N", (pins_mem N L M _).mpr
        (Or.inr (Or.inr (Or.inr (Or.inr (Or.inl ⟨j, hj, false, rfl⟩))))), by rw [hubPin_in]⟩
    · exact Or.inl ⟨fmt "S" j "_P", (pins_mem N L M _).mpr
        (Or.inr (Or.inr (Or.inr (Or.inr (Or.inr ⟨j, hj, true, rfl⟩))))), by rw [hubPin_s]⟩
    · exact Or.inl ⟨fmt "S" j "_N", (pins_mem N L M _).mpr
        (Or.inr (Or.inr (Or.inr (Or.inr (Or.inr ⟨j, hj, false, rfl⟩))))), by rw [hubPin_s]⟩
    · exact Or.inr h
  · rintro (⟨s, hs, rfl⟩ | h)
    · rcases (pins_mem N L M s).mp hs with rfl | rfl | rfl | ⟨n, hn, p, rfl⟩ | ⟨n, hn, p, rfl⟩ |
        ⟨n, hn, p, rfl⟩
      · rw [e1]; exact Or.inl rfl
      · rw [e2]; exact Or.inr (Or.inl rfl)
      · rw [e3]; exact Or.inr (Or.inr (Or.inl rfl))
      · rw [hubPin_x]
        refine Or.inr (Or.inr (Or.inr (Or.inl (Or.inl (Or.inl ⟨n, hn, ?_⟩)))))
        cases p
        · exact Or.inr rfl
        · exact Or.inl rfl
      · rw [hubPin_in]
        refine Or.inr (Or.inr (Or.inr (Or.inl (Or.inl (Or.inr ⟨n, hn, ?_⟩)))))
        cases p
        · exact Or.inr rfl
        · exact Or.inl rfl
      · rw [hubPin_s]
        refine Or.inr (Or.inr (Or.inr (Or.inl (Or.inr ⟨n, hn, ?_⟩))))
        cases p
        · exact Or.inr rfl
        · exact Or.inl rfl
    · exact Or.inr (Or.inr (Or.inr (Or.inr h)))

theorem hubPin_ne (N L M : ℕ) (s : String) (hs : s ∈ multiOtaPins N L M) :
    OaPart.ctl.hubPin s ≠ "" := by
  rcases (pins_mem N L M s).mp hs with rfl | rfl | rfl | ⟨n, hn, p, rfl⟩ | ⟨n, hn, p, rfl⟩ |
    ⟨n, hn, p, rfl⟩
  · decide
  · decide
  · decide
  · rw [hubPin_x]; exact fmt_ne_empty _ _ _ (by decide)
  · rw [hubPin_in]; exact fmt_ne_empty _ _ _ (by decide)
  · rw [hubPin_s]; exact fmt_ne_empty _ _ _ (by decide)

omit [LinearOrder K] in
theorem state_parts (N L M n : ℕ) (C : K) :
    parts (gmcState N L M n C) =
      [⟨fmt "Xgm" n "", .sub (fmt "multi_input_ota_" n ""),
        (multiOtaPins N L M).map (.pin (fmt "Xgm" n ""))⟩,
       ⟨fmt "Cp_" n "", .cap (2 * C), twoPin (fmt "Cp_" n "")⟩,
       ⟨fmt "Cn_" n "", .cap (2 * C), twoPin (fmt "Cn_" n "")⟩] := by
  simp only [gmcState, List.map_cons, List.map_nil, List.cons_append, List.nil_append,
    parts, parts_append, parts_flatMap, flatMap_none]

/-- The netlist of the Gm-C frontend. -/
def gmNet (N L M : ℕ) (C : K) : List (Line K) :=
  ⟨"Xdc", .sub "digital_control", (controlPins N L M).map OaPart.ctl.hubPin⟩ ::
    (List.range N).flatMap fun n =>
      [⟨fmt "Xgm" n "", .sub (fmt "multi_input_ota_" n ""),
        (multiOtaPins N L M).map OaPart.ctl.hubPin⟩,
       ⟨fmt "Cp_" n "", .cap (2 * C), [fmt "X" n "_P", "VCM"]⟩,
       ⟨fmt "Cn_" n "", .cap (2 * C), ["VCM", fmt "X" n "_N"]⟩]

omit [LinearOrder K] in
theorem gmc_conns (N L M : ℕ) (C : K) :
    ∀ c ∈ conns (gmcOps N L M C), GmConn c ∧ ∃ s, c.1 = .own s ∧ s ≠ "" := by
  intro c hc
  unfold gmcOps at hc
  rw [conns_append, conns_flatMap, List.mem_append, List.mem_flatMap] at hc
  rcases hc with hc | ⟨n, _, hc⟩
  · exact control_gm N L M c hc
  · rw [state_conns] at hc
    rcases hc with ⟨s, hs, rfl⟩ | rfl | rfl | rfl | rfl
    · exact ⟨Or.inl ⟨.gm n, s, rfl⟩, _, rfl, hubPin_ne N L M s hs⟩
    · exact ⟨Or.inr ⟨.cap true n, 0, rfl⟩, _, rfl, fmt_ne_empty _ _ _ (by decide)⟩
    · exact ⟨Or.inr ⟨.cap true n, 1, rfl⟩, _, rfl, by decide⟩
    · exact ⟨Or.inr ⟨.cap false n, 1, rfl⟩, _, rfl, fmt_ne_empty _ _ _ (by decide)⟩
    · exact ⟨Or.inr ⟨.cap false n, 0, rfl⟩, _, rfl, by decide⟩

omit [LinearOrder K] in
theorem gmc_parts (N L M : ℕ) (C : K) : parts (gmcOps N L M C) =
      ⟨"Xdc", .sub "digital_control", (controlPins N L M).map (.pin "Xdc")⟩ ::
      (List.range N).flatMap fun n =>
      [(⟨fmt "Xgm" n "", .sub (fmt "multi_input_ota_" n ""),
        (multiOtaPins N L M).map (.pin (fmt "Xgm" n ""))⟩ : Part Obj K),
       ⟨fmt "Cp_" n "", .cap (2 * C), twoPin (fmt "Cp_" n "")⟩,
       ⟨fmt "Cn_" n "", .cap (2 * C), twoPin (fmt "Cn_" n "")⟩] := by
  unfold gmcOps
  rw [parts_append, control_parts, parts_flatMap]
  simp only [state_parts]
  rfl

omit [LinearOrder K] in
theorem gmc_nodup (N L M : ℕ) (C : K) :
    ((Sub.empty.parts ++ parts (gmcOps N L M C)).map Part.inst).Nodup := by
  change ((parts (gmcOps N L M C)).map Part.inst).Nodup
  have e : (parts (gmcOps N L M C)).map Part.inst =
      (GmPart.ctl :: (List.range N).flatMap fun n => [.gm n, .cap true n, .cap false n]).map
        GmPart.inst := by
    rw [gmc_parts, List.map_cons, List.map_cons, List.map_flatMap, List.map_flatMap]
    rfl
  rw [e]
  apply List.Nodup.map GmPart.inst_inj
  rw [List.nodup_cons]
  refine ⟨?_, ?_⟩
  · simp [List.mem_flatMap]
  · apply nodup_flatMap_key N _ (fun q => match q with | .ctl => 0 | .gm n => n | .cap _ n => n)
    · intro n; simp
    · intro n x hx
      simp at hx
      rcases hx with rfl | rfl | rfl <;> rfl

omit [LinearOrder K] in
/-- The constructor of the frontend, once the transconductors exist, prints the expected netlist. -/
theorem gmc_netlist (ids : String → ℕ → String) (N L M : ℕ) (C : K) :
    ∃ s, Sub.run (Obj.name ids) (gmcOps N L M C) .empty = .ok s ∧
      s.netlist (Obj.name ids) = gmNet N L M C ∧ (s.parts.map Part.inst).Nodup := by
  have hparts := gmc_parts N L M C
  have hnd := gmc_nodup N L M C
  have hrun := run_eq (Obj.name ids) (gmcOps N L M C) .empty hnd
  refine ⟨⟨parts (gmcOps N L M C), Wires.connects (Obj.name ids) (conns (gmcOps N L M C)) .empty⟩,
    hrun, ?_, hnd⟩
  have hc := gmc_conns N L M C
  obtain ⟨w, hw⟩ : ∃ w, w = Wires.connects (Obj.name ids) (conns (gmcOps N L M C)) .empty := ⟨_, rfl⟩
  have node : ∀ c ∈ conns (gmcOps N L M C), w.node (Obj.name ids) c.2 = c.1.name ids := by
    intro c hcm
    rw [hw]
    refine (hub_node GmPart.inst_inj GmPart.hubPin GmPart.hubNum ids _
      (fun c h => (hc c h).1) ?_ c hcm).2
    intro d hd
    obtain ⟨s, h1, h2⟩ := (hc d hd).2
    rw [h1]
    exact h2
  rw [← hw]
  unfold Sub.netlist
  dsimp only
  rw [hparts, List.map_cons, List.map_flatMap]
  have hm : ∀ n < N, ∀ c ∈ conns (gmcState N L M n C), w.node (Obj.name ids) c.2 = c.1.name ids := by
    intro n hn c hcc
    apply node
    unfold gmcOps
    rw [conns_append, conns_flatMap]
    exact List.mem_append_right _ (List.mem_flatMap.mpr ⟨n, List.mem_range.mpr hn, hcc⟩)
  unfold gmNet
  congr 1
  · simp only [Part.line, nodeOrder, List.map_map]
    congr 1
    apply List.map_congr_left
    intro s hs
    have hmem : ((.own (OaPart.ctl.hubPin s), .pin "Xdc" s) : Obj × Obj) ∈
        conns (gmcOps N L M C) := by
      unfold gmcOps
      rw [conns_append]
      exact List.mem_append_left _ (control_mem N L M s hs)
    exact node _ hmem
  · apply flatMap_congr_range
    intro n hn
    have h1 : ∀ s ∈ multiOtaPins N L M,
        w.node (Obj.name ids) (.pin (fmt "Xgm" n "") s) = OaPart.ctl.hubPin s := fun s hs =>
      hm n hn (_, _) ((state_conns N L M n C _).mpr (Or.inl ⟨s, hs, rfl⟩))
    have h2 : w.node (Obj.name ids) (.num (fmt "Cp_" n "") 0) = fmt "X" n "_P" :=
      hm n hn (_, _) ((state_conns N L M n C _).mpr (Or.inr (Or.inl rfl)))
    have h3 : w.node (Obj.name ids) (.num (fmt "Cp_" n "") 1) = "VCM" :=
      hm n hn (_, _) ((state_conns N L M n C _).mpr (Or.inr (Or.inr (Or.inl rfl))))
    have h4 : w.node (Obj.name ids) (.num (fmt "Cn_" n "") 1) = fmt "X" n "_N" :=
      hm n hn (_, _) ((state_conns N L M n C _).mpr (Or.inr (Or.inr (Or.inr (Or.inl rfl)))))
    have h5 : w.node (Obj.name ids) (.num (fmt "Cn_" n "") 0) = "VCM" :=
      hm n hn (_, _) ((state_conns N L M n C _).mpr (Or.inr (Or.inr (Or.inr (Or.inr rfl)))))
    simp only [List.map_cons, List.map_nil, Part.line, nodeOrder, List.map_map, twoPin, h2, h3, h4, h5]
    congr 1
    congr 1
    exact List.map_congr_left h1

end

end Cbadc.Circuit
