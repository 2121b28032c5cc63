import Verif.Lemmas.Bench

/-!
# C141: a test bench wires the supplies, the clock, the inputs and the observer to the frontend

The names of the terminals of the frontend are those its sub-circuit is written with (C53, C119).
-/

namespace Cbadc.TestBench
open Circuit

variable (ids : String → ℕ → String) (inputs : List Signal) (L M : ℕ)

/-- **C141** in every test bench that is built, the frontend is instantiated with one node per terminal, in the order
of the terminals: ground for `VSS`, and for any other terminal the node of the test bench of the same name.  This
does not depend on how the frontend was added. -/
theorem C141_frontend (k : Kind) (cs : List (Obj × Obj)) (h : build k inputs L M = .ok cs) :
    frontendNodes ids cs L M =
      ["0", "VDD", "CLK", "VCM"] ++ ((List.range L).map fun l => fmt "IN" l "_P") ++
        ((List.range L).map fun l => fmt "IN" l "_N") ++ ((List.range M).map fun m => fmt "OUT" m "_P") ++
        ((List.range M).map fun m => fmt "OUT" m "_N") := by
  have key : ∀ s x, ((.own x, .pin "Xaf" s) : Obj × Obj) ∈ frontendConns L M →
      (Wires.connects (Obj.name ids) cs .empty).node (Obj.name ids) (.pin "Xaf" s) = x := by
    intro s x hm
    exact bench_node ids h (.own x, .pin "Xaf" s) (List.mem_append_right _ hm)
  have hin : ∀ suf, suf = "_P" ∨ suf = "_N" → ((List.range L).map fun l => fmt "IN" l suf).map (fun s =>
      (Wires.connects (Obj.name ids) cs .empty).node (Obj.name ids) (.pin "Xaf" s)) =
      (List.range L).map fun l => fmt "IN" l suf := by
    intro suf hs
    rw [List.map_map]
    refine List.map_congr_left fun l hl => key _ _ (mem_frontend.mpr (Or.inr (Or.inl ⟨l, List.mem_range.mp hl, ?_⟩)))
    rcases hs with rfl | rfl
    · exact Or.inl rfl
    · exact Or.inr rfl
  have hout : ∀ suf, suf = "_P" ∨ suf = "_N" → ((List.range M).map fun l => fmt "OUT" l suf).map (fun s =>
      (Wires.connects (Obj.name ids) cs .empty).node (Obj.name ids) (.pin "Xaf" s)) =
      (List.range M).map fun l => fmt "OUT" l suf := by
    intro suf hs
    rw [List.map_map]
    refine List.map_congr_left fun l hl => key _ _ (mem_frontend.mpr (Or.inr (Or.inr ⟨l, List.mem_range.mp hl, ?_⟩)))
    rcases hs with rfl | rfl
    · exact Or.inr (Or.inl rfl)
    · exact Or.inr (Or.inr rfl)
  unfold frontendNodes afPins group
  rw [List.map_append, List.map_append, List.map_append, List.map_append, hin _ (Or.inl rfl), hin _ (Or.inr rfl),
    hout _ (Or.inl rfl), hout _ (Or.inr rfl)]
  simp only [List.map_cons, List.map_nil]
  rw [key "VSS" "0" (mem_frontend.mpr (by simp)), key "VDD" "VDD" (mem_frontend.mpr (by simp)),
    key "CLK" "CLK" (mem_frontend.mpr (by simp)), key "VCM" "VCM" (mem_frontend.mpr (by simp))]

/-- **C141** the observer is triggered by the clock and records the positive control signals in their order; the check
made before a netlist is printed therefore only depends on the names of the sub-circuits. -/
theorem C141_observer (k : Kind) (cs : List (Obj × Obj)) (h : build k inputs L M = .ok cs) :
    (Wires.connects (Obj.name ids) cs .empty).node (Obj.name ids) (.num "Aobs" 0) = "CLK" ∧
    (∀ m < M, (Wires.connects (Obj.name ids) cs .empty).node (Obj.name ids) (.num "Aobs" (1 + m)) = fmt "OUT" m "_P") ∧
    ∀ names, sanityCheck ids true cs M names = names := by
  have h0 : ((.own "CLK", .num "Aobs" 0) : Obj × Obj) ∈ baseConns inputs.length := by
    unfold baseConns
    exact List.mem_append_right _ (by simp)
  have h1 : ∀ m < M, ((.own (fmt "OUT" m "_P"), .num "Aobs" (1 + m)) : Obj × Obj) ∈ frontendConns L M := fun m hm =>
    mem_frontend.mpr (Or.inr (Or.inr ⟨m, hm, Or.inl rfl⟩))
  refine ⟨bench_node ids h _ (List.mem_append_left _ h0), fun m hm => bench_node ids h _ (List.mem_append_right _ (h1 m hm)), ?_⟩
  intro names
  unfold sanityCheck
  rw [if_pos rfl, if_pos]
  rw [List.all_eq_true]
  intro j hj
  have hj' := List.mem_range.mp hj
  refine connects_isSome _ _ _ _ (Or.inr ?_)
  have hsub : ∀ c, c ∈ baseConns inputs.length ++ frontendConns L M → c ∈ cs := by
    intro c hc
    rcases (build_ok h).2 with rfl | rfl
    · exact hc
    · rcases List.mem_append.mp hc with hc | hc
      · exact List.mem_append_left _ (List.mem_append_left _ hc)
      · exact List.mem_append_right _ hc
  cases j with
  | zero => exact ⟨_, hsub _ (List.mem_append_left _ h0), rfl⟩
  | succ m =>
    refine ⟨_, hsub _ (List.mem_append_right _ (h1 m (by omega))), ?_⟩
    rw [Nat.add_comm 1 m]

theorem connect_touched {τ : Type} [DecidableEq τ] (nm : τ → String) (w : Wires τ) (a b t : τ) :
    ((w.connect nm a b).port t).isSome ↔ (w.port t).isSome ∨ t = a ∨ t = b := by
  have e : (w.connect nm a b).port = (w.join a b).port := by
    unfold Wires.connect Wires.rename
    cases (w.join a b).port a <;> rfl
  rw [e]
  unfold Wires.join
  cases ha : w.port a <;> cases hb : w.port b <;> simp only [Function.update_apply] <;>
    by_cases h1 : t = a <;> by_cases h2 : t = b <;> simp_all

theorem connects_touched {τ : Type} [DecidableEq τ] (nm : τ → String) (cs : List (τ × τ)) (w : Wires τ) (t : τ) :
    ((w.connects nm cs).port t).isSome ↔ (w.port t).isSome ∨ ∃ c ∈ cs, t = c.1 ∨ t = c.2 := by
  induction cs generalizing w with
  | nil => simp [Wires.connects]
  | cons c cs ih =>
    refine (ih (w.connect nm c.1 c.2)).trans ?_
    rw [connect_touched, List.exists_mem_cons_iff, or_assoc]

/-- **C141** the check made before a netlist is printed: whatever was connected, it refuses the test bench if some terminal of the
observer (the clock and one per control signal) is left open, and passes it on to the check of the names otherwise; without a
frontend it raises. -/
theorem C141_check (cs : List (Obj × Obj)) (names : Res Unit) :
    ((∀ k ≤ M, ∃ c ∈ cs, Obj.num "Aobs" k = c.1 ∨ Obj.num "Aobs" k = c.2) → sanityCheck ids true cs M names = names) ∧
    ((∃ k ≤ M, ∀ c ∈ cs, Obj.num "Aobs" k ≠ c.1 ∧ Obj.num "Aobs" k ≠ c.2) → sanityCheck ids true cs M names = .error .valueError) ∧
    sanityCheck ids false cs M names = .error .attributeError := by
  refine ⟨fun h => ?_, fun ⟨k, hk, h⟩ => ?_, rfl⟩
  · unfold sanityCheck
    rw [if_pos rfl, if_pos]
    rw [List.all_eq_true]
    intro k hk
    exact (connects_touched _ _ _ _).2 (.inr (h k (by have := List.mem_range.1 hk; omega)))
  · unfold sanityCheck
    rw [if_pos rfl, if_neg]
    rw [List.all_eq_true]
    intro hall
    rcases (connects_touched _ _ _ _).1 (hall k (List.mem_range.2 (by omega))) with h' | ⟨c, hc, h'⟩
    · exact absurd h' (by simp [Wires.empty])
    · exact h'.elim (h c hc).1 (h c hc).2

/-- C141_check: the last control signal is not connected to the observer -/
example : sanityCheck (fun _ _ => "x") true [(.own "CLK", .num "Aobs" 0), (.own "OUT0_P", .num "Aobs" 1)] 2 (.ok ()) = .error .valueError :=
  (C141_check (fun _ _ => "x") 2 _ _).2.1 ⟨2, le_rfl, by simp⟩

/-- **C141** the sources of every test bench drive the nodes of its terminals, as those of the op-amp test bench
(C114). -/
theorem C141_sources (k : Kind) (cs : List (Obj × Obj)) (h : build k inputs L M = .ok cs) (w : Wave) :
    line ids cs "Vdd" w = ⟨"Vdd", "VDD", "VCM", w⟩ ∧ line ids cs "Vss" w = ⟨"Vss", "VCM", "0", w⟩ ∧
    line ids cs "Vclk" w = ⟨"Vclk", "CLK", "0", w⟩ ∧
    ∀ l < inputs.length, line ids cs (vinName true l) w = ⟨vinName true l, fmt "IN" l "_P", "VCM", w⟩ ∧
      line ids cs (vinName false l) w = ⟨vinName false l, "VCM", fmt "IN" l "_N", w⟩ := by
  have key : ∀ x e j, ((.own x, .num e j) : Obj × Obj) ∈ baseConns inputs.length →
      (Wires.connects (Obj.name ids) cs .empty).node (Obj.name ids) (.num e j) = x := fun x e j hm =>
    bench_node ids h (.own x, .num e j) (List.mem_append_left _ hm)
  have hs : ∀ c ∈ supplyConns, c ∈ baseConns inputs.length := fun c hc =>
    List.mem_append_left _ (List.mem_append_left _ hc)
  have hi : ∀ l < inputs.length, ∀ c ∈ inputConns l, c ∈ baseConns inputs.length := fun l hl c hc =>
    List.mem_append_left _ (List.mem_append_right _ (List.mem_flatMap.mpr ⟨l, List.mem_range.mpr hl, hc⟩))
  have hline : ∀ e x y, ((.own x, .num e 0) : Obj × Obj) ∈ baseConns inputs.length →
      ((.own y, .num e 1) : Obj × Obj) ∈ baseConns inputs.length → line ids cs e w = ⟨e, x, y, w⟩ := by
    intro e x y h0 h1
    unfold line
    simp only [key _ _ _ h0, key _ _ _ h1]
  refine ⟨hline _ _ _ (hs _ (by simp [supplyConns])) (hs _ (by simp [supplyConns])),
    hline _ _ _ (hs _ (by simp [supplyConns])) (hs _ (by simp [supplyConns])),
    hline _ _ _ (hs _ (by simp [supplyConns])) (hs _ (by simp [supplyConns])), fun l hl => ⟨?_, ?_⟩⟩
  · exact hline _ _ _ (hi l hl _ (by simp [inputConns])) (hi l hl _ (by simp [inputConns]))
  · exact hline _ _ _ (hi l hl _ (by simp [inputConns])) (hi l hl _ (by simp [inputConns]))

/-- **C141** when a test bench is built: with sinusoidal inputs, at least as many as the analog system has; otherwise the
exceptions are as stated.  More inputs are accepted, their nodes go nowhere. -/
theorem C141_built_partial (k : Kind) (hk : k ≠ .stateSpace) :
    (Signal.other ∈ inputs → build k inputs L M = .error .typeError) ∧
    (Signal.other ∉ inputs → inputs.length < L → build k inputs L M = .error .valueError) ∧
    (Signal.other ∉ inputs → L ≤ inputs.length → ∃ cs, build k inputs L M = .ok cs) := by
  have hno : Signal.other ∉ inputs → ∃ ws, inputs.mapM inputWave = .ok ws := by
    induction inputs with
    | nil => intro _; exact ⟨[], rfl⟩
    | cons a l ih =>
      intro hm
      obtain ⟨ws, hw⟩ := ih (fun h => hm (List.mem_cons_of_mem _ h))
      cases a with
      | sinusoidal a f p o =>
        refine ⟨.sin o (a / 2) f 0 0 p :: ws, ?_⟩
        rw [List.mapM_cons, hw]
        rfl
      | other => exact absurd List.mem_cons_self hm
  refine ⟨fun h => ?_, fun h hl => ?_, fun h hl => ?_⟩
  · unfold build
    rw [mapM_error inputWave .typeError inputs ?_ ⟨_, h, rfl⟩]
    · rfl
    · intro a _ x hx
      cases a with
      | sinusoidal => cases hx
      | other => exact (Except.error.inj hx).symm
  · obtain ⟨ws, hw⟩ := hno h
    unfold build
    rw [hw, frontend_lookups, if_neg (by omega)]
    cases k with
    | stateSpace => exact absurd rfl hk
    | opamp => rfl
    | ota => rfl
    | lc => rfl
  · obtain ⟨ws, hw⟩ := hno h
    unfold build
    rw [hw, frontend_lookups, if_pos hl]
    cases k with
    | stateSpace => exact absurd rfl hk
    | opamp => exact ⟨_, rfl⟩
    | ota => exact ⟨_, rfl⟩
    | lc => exact ⟨_, rfl⟩

/-- **C141 is false of the state space test bench**, which cannot be built: its frontend is never set. -/
theorem C141_statespace_false (h : Signal.other ∉ inputs) : build .stateSpace inputs L M = .error .attributeError := by
  have hok := (C141_built_partial inputs 0 M .opamp (by decide)).2.2 h (Nat.zero_le _)
  obtain ⟨cs, hcs⟩ := hok
  unfold build at hcs ⊢
  cases hw : inputs.mapM inputWave with
  | error e => rw [hw] at hcs; cases hcs
  | ok w => rfl

/-- `C141_observer`, `C141_sources`: The hypotheses of C141 are met: an LC test bench with one input and two controls. -/
example : ∃ cs, build .lc [.sinusoidal 1 1 0 0] 1 2 = .ok cs ∧ frontendNodes (fun _ _ => "") cs 1 2 =
    ["0", "VDD", "CLK", "VCM", fmt "IN" 0 "_P", fmt "IN" 0 "_N", fmt "OUT" 0 "_P", fmt "OUT" 1 "_P", fmt "OUT" 0 "_N",
      fmt "OUT" 1 "_N"] := by
  obtain ⟨cs, h⟩ := (C141_built_partial [.sinusoidal 1 1 0 0] 1 2 .lc (by decide)).2.2 (by simp) (by simp)
  exact ⟨cs, h, C141_frontend _ _ 1 2 .lc cs h⟩

/-- A Gm-C test bench with one input less than the analog system is refused. -/
example : build .ota [.sinusoidal 1 1 0 0] 2 2 = .error .valueError :=
  (C141_built_partial _ 2 2 .ota (by decide)).2.1 (by simp) (by simp)

/-- The frontend is already there when it is added, and its terminals have ports of their own before they are
attached: the self connections do change the connections. -/
example : (Wires.connects (Obj.name fun _ _ => "") (selfConns 1 1) .empty).node (Obj.name fun _ _ => "")
    (.pin "Xaf" "VSS") = "VSS" := by decide +kernel

end Cbadc.TestBench
