import Verif.Lemmas.LoopExample

/-! # Behaviours of the frontends around another common mode -/

namespace Cbadc.Circuit
open Cbadc.Circuit.Spec

/-- All potentials raised by `c`. -/
def raise (c : ℝ) (sol : Sol) : Sol := ⟨fun a t => sol.v a t + c, sol.i⟩

/-- The law that allows what the given one allows with potentials lower by `c`. -/
def raised (c : ℝ) (law : Law) : Law := fun name v i => law name (fun k t => v k t - c) i

/-- The levels raised by `c`. -/
def raisedTiming (c : ℝ) (p : Timing) : Timing := ⟨p.lo, p.hi, p.adc, p.dff, p.ramp, p.low + c, p.high + c⟩

theorem obeys_raise (c : ℝ) {law : Law} {sol : Sol} {l : Line ℝ} (h : ∀ g o, l.dev ≠ .sum g o)
    (ho : Obeys law sol l) : Obeys (raised c law) (raise c sol) l := by
  obtain ⟨inst, dev, nodes⟩ := l
  unfold Obeys at ho ⊢
  dsimp only at h ho ⊢
  split at ho
  all_goals first
    | exact absurd rfl (h _ _)
    | exact ho
    | (simp only [raise, raised, add_sub_add_right_eq_sub, add_sub_cancel_right, add_left_inj]
       exact ho)

theorem obeysDef_raise (c : ℝ) {law : Law} {D : Def ℝ} (h : ∀ l ∈ D.body, ∀ g o, l.dev ≠ .sum g o)
    {v i : ℕ → ℝ → ℝ} (ho : ObeysDef law D v i) : ObeysDef (raised c law) D (fun k t => v k t + c) i := by
  obtain ⟨sol, h1, h2, h3⟩ := ho
  refine ⟨raise c sol, fun l hl => obeys_raise c (h l hl) (h1 l hl), fun k hk => ⟨?_, (h2 k hk).2⟩, h3⟩
  funext t
  show sol.v _ t + c = _
  rw [(h2 k hk).1]

/-- A comparator with its summer. -/
theorem comparator_raise (c : ℝ) {law : Law} {S : Analog.Sys ℝ} {GT : ℕ → ℕ → ℝ} {m k : ℕ} {v i : ℕ → ℝ → ℝ}
    (ho : ObeysDef law (coDef S GT m k 0) v i) :
    ObeysDef (raised c law) (coDef S GT m k c) (fun k t => v k t + c) i := by
  obtain ⟨sol, h1, h2, h3⟩ := ho
  refine ⟨raise c sol, ?_, fun k hk => ⟨?_, (h2 k hk).2⟩, h3⟩
  · intro l hl
    simp only [coDef, List.mem_cons, List.not_mem_nil, or_false] at hl h1
    rcases hl with rfl | rfl
    · have := h1 _ (Or.inl rfl)
      unfold Obeys at this ⊢
      dsimp only at this ⊢
      refine ⟨this.1, fun t => ⟨?_, (this.2 t).2⟩⟩
      show sol.v _ t + c = _
      rw [(this.2 t).1]
      simp only [raise, add_sub_add_right_eq_sub, add_zero]
    · exact obeys_raise c (fun g o h => by cases h) (h1 _ (Or.inr rfl))
  · funext t
    show sol.v _ t + c = _
    have := (h2 k hk).1
    dsimp only [coDef] at this ⊢
    rw [this]

/-- A clocked comparator: its digital nodes stay as they are. -/
theorem clocked_raise (c : ℝ) {p : Timing} {v : ℕ → ℝ → ℝ} (ho : ObeysMixed p clockedDef v) :
    ObeysMixed (raisedTiming c p) clockedDef (fun k t => v k t + c) := by
  obtain ⟨pot, h1, h2⟩ := ho
  refine ⟨fun a t => if a ∈ (comparatorPins : List String) then pot a t + c else pot a t, ?_, ?_⟩
  · simp only [clockedDef, List.forall_mem_cons, List.not_mem_nil, false_imp_iff, implies_true, and_true,
      MixedLaw] at h1 ⊢
    obtain ⟨a1, a2, a3, a4, a5⟩ := h1
    simp only [comparatorPins, List.mem_cons, String.reduceEq, List.not_mem_nil, or_false, or_true,
      if_true, if_false]
    refine ⟨?_, ?_, a3, ?_, ?_⟩
    · intro t
      rw [add_sub_add_right_eq_sub]
      exact a1 t
    · intro t
      rw [add_sub_add_right_eq_sub]
      exact a2 t
    · exact fun t => ⟨fun h => congrArg (· + c) ((a4 t).1 h), fun h => congrArg (· + c) ((a4 t).2 h)⟩
    · exact fun t => ⟨fun h => congrArg (· + c) ((a5 t).1 h), fun h => congrArg (· + c) ((a5 t).2 h)⟩
  · intro k hk
    funext t
    have h := h2 k hk
    have hm : clockedDef.ports[k] ∈ (comparatorPins : List String) := List.getElem_mem hk
    show (if _ then _ else _) = _
    rw [if_pos hm, h]

/-- The whole loop. -/
theorem loop_raise (c : ℝ) {law : Law} {sol : Sol} {p : Timing} {net : List (Line ℝ)} {nodes : List String}
    {S : Analog.Sys ℝ} {GT : ℕ → ℕ → ℝ} (hnet : ∀ l ∈ net, ∀ g o, l.dev ≠ .sum g o)
    (hl : Loop law sol p 0 net nodes ⟨controlPins S.N S.L S.M, ctlNet S.N S.L S.M 0⟩
      ((List.range (S.M - 0)).map fun i => coDef S GT (0 + i) i 0) clockedDef) :
    Loop (raised c law) (raise c sol) (raisedTiming c p) c net nodes ⟨controlPins S.N S.L S.M, ctlNet S.N S.L S.M 0⟩
      ((List.range (S.M - 0)).map fun i => coDef S GT (0 + i) i c) clockedDef := by
  have hback : ∀ v : ℕ → ℝ → ℝ, (fun (k : ℕ) (t : ℝ) => v k t - c + c) = v := fun v => by
    funext k t
    ring
  refine ⟨?_, ?_, ?_, ?_, hl.nodes, ?_⟩
  · intro v i h
    have := obeysDef_raise c (D := ⟨controlPins S.N S.L S.M, ctlNet S.N S.L S.M 0⟩) (by
      intro l hl g o
      obtain ⟨i, -, rfl⟩ := List.mem_map.mp hl
      intro h
      cases h) (hl.control _ _ h)
    rwa [hback] at this
  · intro k D hD v i h
    rw [List.getElem?_map] at hD
    obtain ⟨j, hj, rfl⟩ := Option.map_eq_some_iff.mp hD
    have := comparator_raise c (hl.compare k (coDef S GT (0 + j) j 0) (by
      rw [List.getElem?_map, hj]
      rfl) _ _ h)
    rwa [hback] at this
  · intro v i h
    have := clocked_raise c (hl.clocked _ _ h)
    rwa [hback] at this
  · exact fun l hl' => obeys_raise c (hnet l hl') (hl.devices l hl')
  · intro t
    show sol.v "VCM" t + c = c
    rw [hl.mid t, zero_add]

theorem oaNet_floating (S : Analog.Sys ℝ) (G : ℕ → ℕ → ℝ) (C : ℝ) : ∀ l ∈ oaNet S G C, ∀ g o, l.dev ≠ .sum g o := by
  intro l hl g o
  unfold oaNet resNet at hl
  simp only [List.mem_append, List.mem_flatMap, List.mem_map, List.mem_range, List.mem_singleton] at hl
  have hres : ∀ (N J : ℕ) (F : ℕ → ℕ → ℝ) (kd : Kind),
      (∃ n < N, ∃ j < J, l ∈ (if F n j ≠ 0 then
        [(⟨"Rp_" ++ fmt2 kd.pre n j, .res (1 / (1 * C * |F n j|)),
            [fmt kd.src j "_P", fmt "VGND_" n (if F n j < 0 then "_P" else "_N")]⟩ : Line ℝ),
         ⟨"Rn_" ++ fmt2 kd.pre n j, .res (1 / (1 * C * |F n j|)),
            [fmt kd.src j "_N", fmt "VGND_" n (if F n j < 0 then "_N" else "_P")]⟩]
        else [])) → l.dev ≠ .sum g o := by
    rintro N J F kd ⟨n, _, j, _, h⟩
    by_cases hz : F n j ≠ 0
    · rw [if_pos hz] at h
      simp only [List.mem_cons, List.not_mem_nil, or_false] at h
      rcases h with rfl | rfl <;> intro h <;> cases h
    · rw [if_neg hz] at h
      cases h
  rcases hl with (((((rfl | h) | h) | h) | ⟨n, _, rfl⟩) | ⟨n, _, rfl⟩) | ⟨n, _, rfl⟩
  · intro h; cases h
  · exact hres _ _ _ _ h
  · exact hres _ _ _ _ h
  · exact hres _ _ _ _ h
  all_goals intro h; cases h

theorem gmNet_floating (N L M : ℕ) (C : ℝ) : ∀ l ∈ gmNet N L M C, ∀ g o, l.dev ≠ .sum g o := by
  intro l hl g o
  unfold gmNet at hl
  rcases List.mem_cons.mp hl with rfl | hl
  · intro h; cases h
  · obtain ⟨n, _, hl⟩ := List.mem_flatMap.mp hl
    simp only [List.mem_cons, List.not_mem_nil, or_false] at hl
    rcases hl with rfl | rfl | rfl <;> intro h <;> cases h

theorem moNet_floating (S : Analog.Sys ℝ) (G : ℕ → ℕ → ℝ) (k : ℕ) (C : ℝ) (gain : Option ℝ) :
    ∀ l ∈ moNet S G k C gain, ∀ g o, l.dev ≠ .sum g o := by
  intro l hl g o
  unfold moNet otaNet at hl
  simp only [List.mem_append, List.mem_flatMap] at hl
  rcases hl with ((⟨j, -, hl⟩ | ⟨j, -, hl⟩) | ⟨j, -, hl⟩) | hl
  iterate 3
    · split_ifs at hl
      all_goals first
        | (rw [List.mem_singleton] at hl
           subst hl
           intro h
           cases h)
        | cases hl
  · rcases gain with _ | gain
    · cases hl
    · unfold gainNet at hl
      simp only [List.mem_cons, List.not_mem_nil, or_false] at hl
      rcases hl with rfl | rfl <;> intro h <;> cases h

/-- Signals that solve the state equation and whose controls obey the comparators belong to a behaviour of the
op-amp frontend with its digital control around every common mode. -/
theorem loop_realisable_mid (ids : String → ℕ → String) (S : Analog.Sys ℝ) (C mid : ℝ) (G GT : ℕ → ℕ → ℝ)
    (hG : S.Gamma = some G) (hGT : S.GammaT = some GT) (hM : S.M = S.Mt) (x u s : ℕ → ℝ → ℝ)
    (hx : StateEquation S.N S.L S.M S.A S.B G x u s) (clk : ℝ → ℝ) (p : Timing)
    (hP : ∀ i < S.Mt, ObeysMixed p clockedDef (comparatorAt S GT x u s clk i)) :
    ∃ f c ds, opampFrontend ids S C = .ok f ∧ digitalControl ids S 0 mid = .ok (c, ds) ∧ ∃ (law : Law) (sol : Sol),
      (∀ v i, law "opamp" v i → IdealOpamp v i) ∧
      Loop law sol (raisedTiming mid p) mid (f.netlist (Obj.name ids))
        ((List.range S.N).flatMap fun n => [fmt "VGND_" n "_P", fmt "VGND_" n "_N"])
        (c.definition ids (controlPins S.N S.L S.M)) ds clockedDef ∧
      sol.v = fun a t => clockedPot x u s clk a t + mid := by
  obtain ⟨f, c, ds, hf, hc, law, sol, hop, hl, -, -, -, -, hv⟩ := loop_realisable ids S C G GT hG hGT hM x u s hx clk p hP
  obtain ⟨c', hc', -⟩ := control_ok ids S 0 mid GT hGT (by omega)
  obtain ⟨c₀, hc₀, -⟩ := control_ok ids S 0 0 GT hGT (by omega)
  have hd := control_definition ids S 0 0 GT hGT (by omega) c ds hc
  have hd' := control_definition ids S 0 mid GT hGT (by omega) c' _ hc'
  obtain ⟨f', hf', hnet, -⟩ := opamp_netlist ids S G hG C
  rw [hf] at hf'
  cases hf'
  rw [hc] at hc₀
  obtain ⟨-, rfl⟩ : c = c₀ ∧ _ := Prod.mk.inj (Except.ok.inj hc₀)
  rw [hd] at hl
  refine ⟨f, c', _, hf, hc', raised mid law, raise mid sol, ?_, ?_, ?_⟩
  · intro v i h
    obtain ⟨h1, h2⟩ := hop _ _ h
    refine ⟨?_, h2⟩
    funext t
    have := congrFun h1 t
    dsimp only at this
    linarith
  · rw [hd']
    exact loop_raise mid (by rw [hnet]; exact oaNet_floating S G C) hl
  · rw [← hv]
    rfl

/-- The same for the Gm-C frontend. -/
theorem loop_realisable_gain_mid (ids : String → ℕ → String) (S : Analog.Sys ℝ) (C mid : ℝ) (gain : Option ℝ)
    (hgain : gain ≠ none → absMax S.N S.L S.B * C ≠ 0) (G GT : ℕ → ℕ → ℝ)
    (hG : S.Gamma = some G) (hGT : S.GammaT = some GT) (hM : S.M = S.Mt) (x u s : ℕ → ℝ → ℝ)
    (hx : StateEquation S.N S.L S.M (damped S.A (leak (absMax S.N S.L S.B) gain)) S.B G x u s) (clk : ℝ → ℝ) (p : Timing)
    (hP : ∀ i < S.Mt, ObeysMixed p clockedDef (comparatorAt S GT x u s clk i)) :
    ∃ f os c ds, gmcFrontend ids S C gain = .ok (f, os) ∧ digitalControl ids S 0 mid = .ok (c, ds) ∧
      ∃ (law : Law) (sol : Sol),
      (∀ n (h : n < os.length), ∀ v i, law (fmt "multi_input_ota_" n "") v i → ObeysDef law os[n] v i) ∧
      Loop law sol (raisedTiming mid p) mid (f.netlist (Obj.name ids))
        ((List.range S.N).flatMap fun n => [fmt "X" n "_P", fmt "X" n "_N"])
        (c.definition ids (controlPins S.N S.L S.M)) ds clockedDef ∧
      sol.v = fun a t => clockedPot x u s clk a t + mid := by
  obtain ⟨f, os, c, ds, hf, hc, law, sol, hop, hl, -, -, -, -, hv⟩ :=
    loop_realisable_gain ids S C gain hgain G GT hG hGT hM x u s hx clk p hP
  obtain ⟨c', hc', -⟩ := control_ok ids S 0 mid GT hGT (by omega)
  obtain ⟨c₀, hc₀, -⟩ := control_ok ids S 0 0 GT hGT (by omega)
  have hd := control_definition ids S 0 0 GT hGT (by omega) c ds hc
  have hd' := control_definition ids S 0 mid GT hGT (by omega) c' _ hc'
  obtain ⟨f', hf', hnet, -⟩ := gmcFrontend_ok ids S G hG C gain hgain
  rw [hf] at hf'
  obtain ⟨rfl, rfl⟩ := Prod.mk.inj (Except.ok.inj hf')
  rw [hc] at hc₀
  obtain ⟨-, rfl⟩ : c = c₀ ∧ _ := Prod.mk.inj (Except.ok.inj hc₀)
  rw [hd] at hl
  refine ⟨f, _, c', _, hf, hc', raised mid law, raise mid sol, ?_, ?_, ?_⟩
  · intro n h v i hv
    have h1 := obeysDef_raise mid (by
      rw [List.getElem_map]
      exact moNet_floating S G _ C gain) (hop n h _ _ hv)
    have e : (fun (k : ℕ) (t : ℝ) => v k t - mid + mid) = v := by
      funext k t
      ring
    rwa [e] at h1
  · rw [hd']
    exact loop_raise mid (by rw [hnet]; exact gmNet_floating S.N S.L S.M C) hl
  · rw [← hv]
    rfl

/-- Without leakage. -/
theorem loop_realisable_gmc_mid (ids : String → ℕ → String) (S : Analog.Sys ℝ) (C mid : ℝ) (G GT : ℕ → ℕ → ℝ)
    (hG : S.Gamma = some G) (hGT : S.GammaT = some GT) (hM : S.M = S.Mt) (x u s : ℕ → ℝ → ℝ)
    (hx : StateEquation S.N S.L S.M S.A S.B G x u s) (clk : ℝ → ℝ) (p : Timing)
    (hP : ∀ i < S.Mt, ObeysMixed p clockedDef (comparatorAt S GT x u s clk i)) :
    ∃ f os c ds, gmcFrontend ids S C none = .ok (f, os) ∧ digitalControl ids S 0 mid = .ok (c, ds) ∧
      ∃ (law : Law) (sol : Sol),
      (∀ n (h : n < os.length), ∀ v i, law (fmt "multi_input_ota_" n "") v i → ObeysDef law os[n] v i) ∧
      Loop law sol (raisedTiming mid p) mid (f.netlist (Obj.name ids))
        ((List.range S.N).flatMap fun n => [fmt "X" n "_P", fmt "X" n "_N"])
        (c.definition ids (controlPins S.N S.L S.M)) ds clockedDef ∧
      sol.v = fun a t => clockedPot x u s clk a t + mid := by
  refine loop_realisable_gain_mid ids S C mid none (fun h => absurd rfl h) G GT hG hGT hM x u s ?_ clk p hP
  have : damped S.A (leak (absMax S.N S.L S.B) none) = S.A := by
    funext n j
    simp [damped, leak]
  rw [this]
  exact hx

end Cbadc.Circuit
