import Verif.Lemmas.LoopControl
import Verif.Props.OpAmp
import Verif.Props.GmC

/-! # Behaviours of the frontends with their digital control -/

namespace Cbadc.Circuit
open Cbadc.Circuit.Spec

theorem obeysDef_mono {law law' : Law} {D : Def ℝ} (h : ∀ l ∈ D.body, ∀ sol, Obeys law sol l → Obeys law' sol l)
    {v i : ℕ → ℝ → ℝ} (ho : ObeysDef law D v i) : ObeysDef law' D v i := by
  obtain ⟨sol, h1, h2⟩ := ho
  exact ⟨sol, fun l hl => h l hl sol (h1 l hl), h2⟩

theorem potential_other (x u s : ℕ → ℝ → ℝ) (a : String) (h : ∀ q : Signal, q.name ≠ a) : potential x u s a = 0 := by
  unfold potential
  rw [dif_neg]
  rintro ⟨q, hq⟩
  exact h q hq

/-- The terminals of the clocked comparator `i` in a circuit with the given signals and common mode zero. -/
noncomputable def comparatorAt (S : Analog.Sys ℝ) (GT : ℕ → ℕ → ℝ) (x u s : ℕ → ℝ → ℝ) (clk : ℝ → ℝ) (i k : ℕ) : ℝ → ℝ :=
  if k = 0 then clk
  else if k = 1 then fun t => ∑ n ∈ Finset.range S.N, GT i n * x n t + ∑ l ∈ Finset.range S.L, S.Bt i l * u l t
    + ∑ m ∈ Finset.range S.M, S.At i m * s m t
  else if k = 2 then fun t => s i t / 2
  else if k = 3 then fun t => - (s i t / 2)
  else fun _ => 0

/-- The potentials of the given signals and of a clock. -/
noncomputable def clockedPot (x u s : ℕ → ℝ → ℝ) (clk : ℝ → ℝ) : String → ℝ → ℝ :=
  Function.update (potential x u s) "CLK" clk

theorem clockedPot_ne (x u s : ℕ → ℝ → ℝ) (clk : ℝ → ℝ) {a : String} (h : a ≠ "CLK") :
    clockedPot x u s clk a = potential x u s a := Function.update_of_ne h _ _

theorem clockedPot_signal (x u s : ℕ → ℝ → ℝ) (clk : ℝ → ℝ) (q : Signal) :
    clockedPot x u s clk q.name = q.half x u s := by
  rw [clockedPot_ne x u s clk]
  · exact potential_signal x u s q
  · intro h
    rcases q with ⟨q, m⟩ | ⟨q, m⟩ | ⟨q, m⟩ <;> cases q <;> simp only [Signal.name, sfx] at h <;> names at h

theorem clockedPot_x (x u s : ℕ → ℝ → ℝ) (clk : ℝ → ℝ) (n : ℕ) (t : ℝ) :
    clockedPot x u s clk (fmt "X" n "_P") t - clockedPot x u s clk (fmt "X" n "_N") t = x n t := by
  have h1 := congrFun (clockedPot_signal x u s clk (.x true n)) t
  have h2 := congrFun (clockedPot_signal x u s clk (.x false n)) t
  simp only [Signal.name, sfx, if_true, Bool.false_eq_true, if_false, Signal.half] at h1 h2
  rw [h1, h2]; ring

theorem clockedPot_in (x u s : ℕ → ℝ → ℝ) (clk : ℝ → ℝ) (n : ℕ) (t : ℝ) :
    clockedPot x u s clk (fmt "IN" n "_P") t - clockedPot x u s clk (fmt "IN" n "_N") t = u n t := by
  have h1 := congrFun (clockedPot_signal x u s clk (.u true n)) t
  have h2 := congrFun (clockedPot_signal x u s clk (.u false n)) t
  simp only [Signal.name, sfx, if_true, Bool.false_eq_true, if_false, Signal.half] at h1 h2
  rw [h1, h2]; ring

theorem clockedPot_out (x u s : ℕ → ℝ → ℝ) (clk : ℝ → ℝ) (n : ℕ) (t : ℝ) :
    clockedPot x u s clk (fmt "OUT" n "_P") t - clockedPot x u s clk (fmt "OUT" n "_N") t = s n t := by
  have h1 := congrFun (clockedPot_signal x u s clk (.s true n)) t
  have h2 := congrFun (clockedPot_signal x u s clk (.s false n)) t
  simp only [Signal.name, sfx, if_true, Bool.false_eq_true, if_false, Signal.half] at h1 h2
  rw [h1, h2]; ring

theorem clockedPot_vcm (x u s : ℕ → ℝ → ℝ) (clk : ℝ → ℝ) : clockedPot x u s clk "VCM" = 0 := by
  rw [clockedPot_ne x u s clk (by decide)]
  exact potential_vcm x u s

/-- A line without the clock does not notice it. -/
theorem obeys_clocked (law : Law) (x u s : ℕ → ℝ → ℝ) (clk : ℝ → ℝ) (so : Sol) (hv : so.v = potential x u s)
    (l : Line ℝ) (hl : "CLK" ∉ l.nodes) (h : Obeys law so l) : Obeys law ⟨clockedPot x u s clk, so.i⟩ l := by
  have e : ∀ a ∈ l.nodes, clockedPot x u s clk a = so.v a := fun a ha => by
    rw [hv]
    exact clockedPot_ne x u s clk (fun h => hl (h ▸ ha))
  have e' : ∀ k, clockedPot x u s clk (l.nodes.getD k "") = so.v (l.nodes.getD k "") := fun k => by
    rw [hv]
    refine clockedPot_ne x u s clk fun h => ?_
    rw [List.getD_eq_getElem?_getD] at h
    cases hk : l.nodes[k]? with
    | none =>
      rw [hk] at h
      exact absurd h (by decide)
    | some a =>
      rw [hk] at h
      exact hl (h ▸ List.mem_of_getElem? hk)
  obtain ⟨inst, dev, nodes⟩ := l
  dsimp only at e e'
  unfold Obeys at h ⊢
  dsimp only at h ⊢
  split at h
  all_goals first
    | (simp only [List.mem_cons, List.not_mem_nil, or_false, forall_eq_or_imp, forall_eq] at e
       simp only [e]
       exact h)
    | (simp only [e']
       exact h)
    | exact h

/-- The law matters for the kind of the line only. -/
theorem obeys_law {law law' : Law} {so : Sol} {l : Line ℝ}
    (h : ∀ name v i, l.dev = .sub name → law name v i → law' name v i) (ho : Obeys law so l) : Obeys law' so l := by
  obtain ⟨inst, dev, nodes⟩ := l
  unfold Obeys at ho ⊢
  dsimp only at h ho ⊢
  split at ho
  all_goals first
    | exact h _ _ _ rfl ho
    | exact ho

/-- The laws of the comparators. -/
def comparatorLaw (S : Analog.Sys ℝ) (GT : ℕ → ℕ → ℝ) (p : Timing) : Law := fun name v j =>
  (name = "clocked_comparator" ∧ ObeysMixed p clockedDef v) ∨ ∃ i < S.M, name = fmt "multi_input_comparator_" i "" ∧
    ObeysDef (fun _ v _ => ObeysMixed p clockedDef v) (coDef S GT i i 0) v j

theorem comparatorLaw_clocked {S : Analog.Sys ℝ} {GT : ℕ → ℕ → ℝ} {p : Timing} {v j : ℕ → ℝ → ℝ}
    (h : comparatorLaw S GT p "clocked_comparator" v j) : ObeysMixed p clockedDef v := by
  rcases h with ⟨-, h⟩ | ⟨i, -, h, -⟩
  · exact h
  · names at h

theorem comparatorLaw_multi {S : Analog.Sys ℝ} {GT : ℕ → ℕ → ℝ} {p : Timing} (law : Law)
    (hlaw : ∀ v j, ObeysMixed p clockedDef v → law "clocked_comparator" v j) {k : ℕ} {D : Def ℝ}
    (hD : ((List.range (S.M - 0)).map fun i => coDef S GT (0 + i) i 0)[k]? = some D) {v j : ℕ → ℝ → ℝ}
    (h : comparatorLaw S GT p (fmt "multi_input_comparator_" k "") v j) : ObeysDef law D v j := by
  rw [List.getElem?_map] at hD
  obtain ⟨i', hi', rfl⟩ := Option.map_eq_some_iff.mp hD
  obtain ⟨hlt, rfl⟩ : k < S.M ∧ i' = k := by
    rw [List.getElem?_eq_some_iff] at hi'
    obtain ⟨h, e⟩ := hi'
    rw [List.getElem_range] at e
    rw [List.length_range] at h
    exact ⟨by omega, e.symm⟩
  rw [zero_add]
  rcases h with ⟨h, -⟩ | ⟨i, hi, h, ho⟩
  · names at h
  · names at h
    subst h
    refine obeysDef_mono ?_ ho
    intro l hl so ho
    simp only [coDef, List.mem_cons, List.not_mem_nil, or_false] at hl
    rcases hl with rfl | rfl
    · exact ho
    · exact hlaw _ _ ho

/-- The digital control obeys its definition without a current. -/
theorem control_obeys (S : Analog.Sys ℝ) (GT : ℕ → ℕ → ℝ) (hM : S.M = S.Mt) (x u s : ℕ → ℝ → ℝ) (clk : ℝ → ℝ)
    (p : Timing) (hP : ∀ i < S.Mt, ObeysMixed p clockedDef (comparatorAt S GT x u s clk i)) :
    ObeysDef (comparatorLaw S GT p) ⟨controlPins S.N S.L S.M, ctlNet S.N S.L S.M 0⟩
      (fun k => clockedPot x u s clk (((controlPins S.N S.L S.M).map OaPart.ctl.hubPin).getD k ""))
      (fun _ _ => 0) := by
  let inner : String → ℝ → ℝ := fun a => clockedPot x u s clk (OaPart.ctl.hubPin a)
  have hPi : ∀ i < S.Mt, ObeysMixed p clockedDef fun k => Function.update inner "STILDE" (summed S GT 0 inner i)
      (["CLK", "STILDE", fmt "S" (0 + i) "_P", fmt "S" (0 + i) "_N", "VCM"].getD k "") := by
    intro i hi
    obtain ⟨w, h1, h2⟩ := hP i hi
    refine ⟨w, h1, ?_⟩
    intro k hk
    rw [h2 k hk]
    have hk' : k < 5 := hk
    rw [zero_add]
    have n1 : ∀ b, fmt "S" i b ≠ "STILDE" := fun b => stilde_ne i b
    rcases k with _ | _ | _ | _ | _ | k
    · show clk = Function.update inner "STILDE" _ "CLK"
      rw [Function.update_of_ne (by decide)]
      exact (Function.update_self "CLK" clk (potential x u s)).symm
    · show _ = Function.update inner "STILDE" _ "STILDE"
      rw [Function.update_self]
      funext t
      show ∑ n ∈ Finset.range S.N, GT i n * x n t + ∑ l ∈ Finset.range S.L, S.Bt i l * u l t
        + ∑ m ∈ Finset.range S.M, S.At i m * s m t = summed S GT 0 inner i t
      simp only [summed, inner, hubPin_x, hubPin_in, hubPin_s, clockedPot_x, clockedPot_in, clockedPot_out, add_zero]
    · show (fun t => s i t / 2) = Function.update inner "STILDE" _ (fmt "S" i "_P")
      rw [Function.update_of_ne (n1 _)]
      show _ = clockedPot x u s clk (OaPart.ctl.hubPin (fmt "S" i "_P"))
      rw [hubPin_s]
      exact (clockedPot_signal x u s clk (.s true i)).symm
    · show (fun t => - (s i t / 2)) = Function.update inner "STILDE" _ (fmt "S" i "_N")
      rw [Function.update_of_ne (n1 _)]
      show _ = clockedPot x u s clk (OaPart.ctl.hubPin (fmt "S" i "_N"))
      rw [hubPin_s]
      exact (clockedPot_signal x u s clk (.s false i)).symm
    · show (fun _ => 0) = Function.update inner "STILDE" _ "VCM"
      rw [Function.update_of_ne (by decide)]
      exact (clockedPot_vcm x u s clk).symm
    · omega
  refine ⟨⟨inner, fun _ _ _ => 0⟩, ?_, ?_, fun a _ t => leaving_none _ _ _ _⟩
  · intro l hl
    obtain ⟨i, hi, rfl⟩ := List.mem_map.mp hl
    have hi := List.mem_range.mp hi
    refine Or.inr ⟨i, by omega, by rw [zero_add], ?_⟩
    have := comparator_real S GT (0 + i) i 0 inner (ObeysMixed p clockedDef) (hPi i (by omega))
    rw [zero_add] at this
    exact this
  · intro k hk
    refine ⟨?_, ?_⟩
    · have hk' : k < (controlPins S.N S.L S.M).length := hk
      dsimp only
      rw [List.getD_eq_getElem?_getD, List.getElem?_map, List.getElem?_eq_getElem hk']
      rfl
    · funext t
      dsimp only
      rw [leaving_none]

/-- Signals that solve the state equation and whose controls obey the comparators belong to a behaviour of the
op-amp frontend with its digital control. -/
theorem loop_realisable (ids : String → ℕ → String) (S : Analog.Sys ℝ) (C : ℝ) (G GT : ℕ → ℕ → ℝ)
    (hG : S.Gamma = some G) (hGT : S.GammaT = some GT) (hM : S.M = S.Mt) (x u s : ℕ → ℝ → ℝ)
    (hx : StateEquation S.N S.L S.M S.A S.B G x u s) (clk : ℝ → ℝ) (p : Timing)
    (hP : ∀ i < S.Mt, ObeysMixed p clockedDef (comparatorAt S GT x u s clk i)) :
    ∃ f c ds, opampFrontend ids S C = .ok f ∧ digitalControl ids S 0 0 = .ok (c, ds) ∧ ∃ (law : Law) (sol : Sol),
      (∀ v i, law "opamp" v i → IdealOpamp v i) ∧
      Loop law sol p 0 (f.netlist (Obj.name ids))
        ((List.range S.N).flatMap fun n => [fmt "VGND_" n "_P", fmt "VGND_" n "_N"])
        (c.definition ids (controlPins S.N S.L S.M)) ds clockedDef ∧
      (∀ n, diff sol (fmt "X" n "_P") (fmt "X" n "_N") = x n) ∧
      (∀ l, diff sol (fmt "IN" l "_P") (fmt "IN" l "_N") = u l) ∧
      (∀ m, diff sol (fmt "OUT" m "_P") (fmt "OUT" m "_N") = s m) ∧ diff sol "CLK" "VCM" = clk ∧
      sol.v = clockedPot x u s clk := by
  obtain ⟨f, hf, so, hv, hi, hob, hk⟩ := opamp_realise ids S C G hG x u s hx
  obtain ⟨f', hf', hnet, -⟩ := opamp_netlist ids S G hG C
  rw [hf] at hf'
  cases hf'
  rw [hnet] at hob hk
  obtain ⟨c, hc, hn⟩ := control_ok ids S 0 0 GT hGT (by omega)
  have hdef := control_definition ids S 0 0 GT hGT (by omega) c _ hc
  let law : Law := fun name v j => (name = "opamp" → IdealOpamp v j) ∧
    (name = "digital_control" → ObeysDef (comparatorLaw S GT p) ⟨controlPins S.N S.L S.M, ctlNet S.N S.L S.M 0⟩ v j) ∧
    (name ≠ "opamp" → name ≠ "digital_control" → comparatorLaw S GT p name v j)
  have micne : ∀ i, fmt "multi_input_comparator_" i "" ≠ "opamp" ∧
      fmt "multi_input_comparator_" i "" ≠ "digital_control" := by
    intro i
    refine ⟨?_, ?_⟩ <;> intro h <;> names at h
  refine ⟨f, c, _, hf, hc, law, ⟨clockedPot x u s clk, so.i⟩, fun v i h => h.1 rfl, ⟨?_, ?_, ?_, ?_, ?_, ?_⟩,
    fun n => funext (clockedPot_x x u s clk n), fun n => funext (clockedPot_in x u s clk n),
    fun n => funext (clockedPot_out x u s clk n), ?_, rfl⟩
  · intro v j hl
    rw [hdef]
    refine obeysDef_mono ?_ (hl.2.1 rfl)
    intro l hl so ho
    obtain ⟨i, hi, rfl⟩ := List.mem_map.mp hl
    exact ⟨fun h => absurd h (micne _).1, fun h => absurd h (micne _).2, fun _ _ => ho⟩
  · intro k D hD v j hl
    refine comparatorLaw_multi law (fun v j h => ?_) hD (hl.2.2 (micne _).1 (micne _).2)
    exact ⟨fun h => absurd h (by decide), fun h => absurd h (by decide), fun _ _ => Or.inl ⟨rfl, h⟩⟩
  · intro v j hl
    exact comparatorLaw_clocked (hl.2.2 (by decide) (by decide))
  · rw [hnet]
    intro l hl
    have h0 := hob l hl
    unfold oaNet resNet at hl
    simp only [List.mem_append, List.mem_flatMap, List.mem_map, List.mem_range,
      List.mem_singleton] at hl
    have hmono : ∀ l : Line ℝ, (∀ name, l.dev = .sub name → name = "opamp") → "CLK" ∉ l.nodes →
        Obeys (fun name v i => name = "opamp" → IdealOpamp v i) so l → Obeys law ⟨clockedPot x u s clk, so.i⟩ l := by
      intro l hsub hclk ho
      refine obeys_law ?_ (obeys_clocked _ x u s clk so hv l hclk ho)
      intro name v i hd h
      obtain rfl := hsub _ hd
      exact ⟨fun _ => h rfl, fun h => absurd h (by decide), fun h => absurd rfl h⟩
    have hres : ∀ (N J : ℕ) (F : ℕ → ℕ → ℝ) (kd : Kind),
        (∃ n < N, ∃ j < J, l ∈ (if F n j ≠ 0 then
          [(⟨"Rp_" ++ fmt2 kd.pre n j, .res (1 / (1 * C * |F n j|)),
              [fmt kd.src j "_P", fmt "VGND_" n (if F n j < 0 then "_P" else "_N")]⟩ : Line ℝ),
           ⟨"Rn_" ++ fmt2 kd.pre n j, .res (1 / (1 * C * |F n j|)),
              [fmt kd.src j "_N", fmt "VGND_" n (if F n j < 0 then "_N" else "_P")]⟩]
          else [])) → Obeys law ⟨clockedPot x u s clk, so.i⟩ l := by
      rintro N J F kd ⟨n, _, j, _, h⟩
      by_cases hz : F n j ≠ 0
      · rw [if_pos hz] at h
        simp only [List.mem_cons, List.not_mem_nil, or_false] at h
        rcases h with rfl | rfl <;>
        · refine hmono _ (fun name h => by cases h) ?_ h0
          simp only [List.mem_cons, List.not_mem_nil, or_false, not_or]
          refine ⟨fun h => ?_, fun h => ?_⟩
          · cases kd <;> simp only [Kind.src] at h <;> names at h
          · names at h
      · rw [if_neg hz] at h
        cases h
    rcases hl with (((((rfl | h) | h) | h) | ⟨n, hn', rfl⟩) | ⟨n, hn', rfl⟩) | ⟨n, hn', rfl⟩
    · refine ⟨fun h => absurd h (by decide), fun _ => ?_, fun _ h => absurd rfl h⟩
      show ObeysDef _ _ _ (so.i "Xdc")
      rw [hi]
      exact control_obeys S GT hM x u s clk p hP
    · exact hres _ _ _ _ h
    · exact hres _ _ _ _ h
    · exact hres _ _ _ _ h
    all_goals
      refine hmono _ (fun name h => by first | (cases h; rfl) | cases h) ?_ h0
      simp only [List.mem_cons, List.not_mem_nil, or_false, not_or]
      repeat' apply And.intro
      all_goals first
        | decide
        | (intro h; names at h)
  · intro a ha
    rw [hnet]
    obtain ⟨n, hn', ha⟩ := List.mem_flatMap.mp ha
    have hn' := List.mem_range.mp hn'
    simp only [List.mem_cons, List.not_mem_nil, or_false] at ha
    rcases ha with rfl | rfl
    · exact (hk n hn').1
    · exact (hk n hn').2
  · intro t
    exact congrFun (clockedPot_vcm x u s clk) t
  · funext t
    show clockedPot x u s clk "CLK" t - clockedPot x u s clk "VCM" t = clk t
    rw [clockedPot_vcm, show clockedPot x u s clk "CLK" = clk from Function.update_self _ _ _]
    exact sub_zero _

/-- The same for the Gm-C frontend. -/
theorem loop_realisable_gain (ids : String → ℕ → String) (S : Analog.Sys ℝ) (C : ℝ) (gain : Option ℝ)
    (hgain : gain ≠ none → absMax S.N S.L S.B * C ≠ 0) (G GT : ℕ → ℕ → ℝ)
    (hG : S.Gamma = some G) (hGT : S.GammaT = some GT) (hM : S.M = S.Mt) (x u s : ℕ → ℝ → ℝ)
    (hx' : StateEquation S.N S.L S.M (damped S.A (leak (absMax S.N S.L S.B) gain)) S.B G x u s) (clk : ℝ → ℝ) (p : Timing)
    (hP : ∀ i < S.Mt, ObeysMixed p clockedDef (comparatorAt S GT x u s clk i)) :
    ∃ f os c ds, gmcFrontend ids S C gain = .ok (f, os) ∧ digitalControl ids S 0 0 = .ok (c, ds) ∧
      ∃ (law : Law) (sol : Sol),
      (∀ n (h : n < os.length), ∀ v i, law (fmt "multi_input_ota_" n "") v i → ObeysDef law os[n] v i) ∧
      Loop law sol p 0 (f.netlist (Obj.name ids))
        ((List.range S.N).flatMap fun n => [fmt "X" n "_P", fmt "X" n "_N"])
        (c.definition ids (controlPins S.N S.L S.M)) ds clockedDef ∧
      (∀ n, diff sol (fmt "X" n "_P") (fmt "X" n "_N") = x n) ∧
      (∀ l, diff sol (fmt "IN" l "_P") (fmt "IN" l "_N") = u l) ∧
      (∀ m, diff sol (fmt "OUT" m "_P") (fmt "OUT" m "_N") = s m) ∧ diff sol "CLK" "VCM" = clk ∧
      sol.v = clockedPot x u s clk := by
  obtain ⟨f, hf, hnet, hnd⟩ := gmcFrontend_ok ids S G hG C gain hgain
  obtain ⟨ota, so, hv, hi, hota, hob, hk⟩ := gmc_realise S G C gain hnd x u s hx'
  obtain ⟨c, hc, hn⟩ := control_ok ids S 0 0 GT hGT (by omega)
  have hdef := control_definition ids S 0 0 GT hGT (by omega) c _ hc
  let law : Law := fun name v j => (∀ n < S.N, name = fmt "multi_input_ota_" n "" → ota n v j) ∧
    (name = "digital_control" → ObeysDef (comparatorLaw S GT p) ⟨controlPins S.N S.L S.M, ctlNet S.N S.L S.M 0⟩ v j) ∧
    ((∀ n, name ≠ fmt "multi_input_ota_" n "") → name ≠ "digital_control" → comparatorLaw S GT p name v j)
  have micne : ∀ i, (∀ n, fmt "multi_input_comparator_" i "" ≠ fmt "multi_input_ota_" n "") ∧
      fmt "multi_input_comparator_" i "" ≠ "digital_control" := by
    intro i
    refine ⟨fun n h => ?_, fun h => ?_⟩ <;> names at h
  have clone : ∀ n, "clocked_comparator" ≠ fmt "multi_input_ota_" n "" := by
    intro n h
    names at h
  have dcne : ∀ n, "digital_control" ≠ fmt "multi_input_ota_" n "" := by
    intro n h
    names at h
  refine ⟨f, _, c, _, hf, hc, law, ⟨clockedPot x u s clk, so.i⟩, ?_, ⟨?_, ?_, ?_, ?_, ?_, ?_⟩,
    fun n => funext (clockedPot_x x u s clk n), fun n => funext (clockedPot_in x u s clk n),
    fun n => funext (clockedPot_out x u s clk n), ?_, rfl⟩
  · intro n h v i hl
    have hn : n < S.N := by simpa using h
    have := hota law n hn v i (hl.1 n hn rfl)
    simpa using this
  · intro v j hl
    rw [hdef]
    refine obeysDef_mono ?_ (hl.2.1 rfl)
    intro l hl so ho
    obtain ⟨i, hi, rfl⟩ := List.mem_map.mp hl
    exact ⟨fun n _ h => absurd h ((micne _).1 n), fun h => absurd h (micne _).2, fun _ _ => ho⟩
  · intro k D hD v j hl
    refine comparatorLaw_multi law (fun v j h => ?_) hD (hl.2.2 (micne _).1 (micne _).2)
    exact ⟨fun n _ h => absurd h (clone n), fun h => absurd h (by decide), fun _ _ => Or.inl ⟨rfl, h⟩⟩
  · intro v j hl
    exact comparatorLaw_clocked (hl.2.2 clone (by decide))
  · rw [hnet]
    intro l hl
    by_cases hne : l.inst = "Xdc"
    · rw [gmNet_control S.N S.L S.M C l hl hne]
      refine ⟨fun n _ h => absurd h (dcne n), fun _ => ?_, fun _ h => absurd rfl h⟩
      show ObeysDef _ _ _ (so.i "Xdc")
      rw [hi]
      exact control_obeys S GT hM x u s clk p hP
    · refine obeys_clocked law x u s clk so hv l ?_ (hob law ?_ l hl hne)
      · unfold gmNet at hl
        rcases List.mem_cons.mp hl with rfl | hl
        · exact absurd rfl hne
        · obtain ⟨n, _, hl⟩ := List.mem_flatMap.mp hl
          simp only [List.mem_cons, List.not_mem_nil, or_false] at hl
          rcases hl with rfl | rfl | rfl
          · dsimp only
            rw [List.mem_map]
            rintro ⟨a, ha, e⟩
            rcases (pins_mem _ _ _ _).mp ha with rfl | rfl | rfl | ⟨m, _, q, rfl⟩ | ⟨m, _, q, rfl⟩ | ⟨m, _, q, rfl⟩
            · exact absurd e (by decide +kernel)
            · exact absurd e (by decide +kernel)
            · exact absurd e (by decide +kernel)
            · rw [hubPin_x] at e
              names at e
            · rw [hubPin_in] at e
              names at e
            · rw [hubPin_s] at e
              names at e
          all_goals
            simp only [List.mem_cons, List.not_mem_nil, or_false, not_or]
            refine ⟨?_, ?_⟩
            all_goals first
              | decide
              | (intro h; names at h)
      · intro n hn v i h
        refine ⟨fun m _ e => ?_, fun e => absurd e.symm (dcne n), fun e => absurd rfl (e n)⟩
        names at e
        subst e
        exact h
  · intro a ha
    rw [hnet]
    obtain ⟨n, hn', ha⟩ := List.mem_flatMap.mp ha
    have hn' := List.mem_range.mp hn'
    simp only [List.mem_cons, List.not_mem_nil, or_false] at ha
    rcases ha with rfl | rfl
    · exact (hk n hn').1
    · exact (hk n hn').2
  · intro t
    exact congrFun (clockedPot_vcm x u s clk) t
  · funext t
    show clockedPot x u s clk "CLK" t - clockedPot x u s clk "VCM" t = clk t
    rw [clockedPot_vcm, show clockedPot x u s clk "CLK" = clk from Function.update_self _ _ _]
    exact sub_zero _

/-- Without leakage. -/
theorem loop_realisable_gmc (ids : String → ℕ → String) (S : Analog.Sys ℝ) (C : ℝ) (G GT : ℕ → ℕ → ℝ)
    (hG : S.Gamma = some G) (hGT : S.GammaT = some GT) (hM : S.M = S.Mt) (x u s : ℕ → ℝ → ℝ)
    (hx : StateEquation S.N S.L S.M S.A S.B G x u s) (clk : ℝ → ℝ) (p : Timing)
    (hP : ∀ i < S.Mt, ObeysMixed p clockedDef (comparatorAt S GT x u s clk i)) :
    ∃ f os c ds, gmcFrontend ids S C none = .ok (f, os) ∧ digitalControl ids S 0 0 = .ok (c, ds) ∧
      ∃ (law : Law) (sol : Sol),
      (∀ n (h : n < os.length), ∀ v i, law (fmt "multi_input_ota_" n "") v i → ObeysDef law os[n] v i) ∧
      Loop law sol p 0 (f.netlist (Obj.name ids))
        ((List.range S.N).flatMap fun n => [fmt "X" n "_P", fmt "X" n "_N"])
        (c.definition ids (controlPins S.N S.L S.M)) ds clockedDef ∧
      (∀ n, diff sol (fmt "X" n "_P") (fmt "X" n "_N") = x n) ∧
      (∀ l, diff sol (fmt "IN" l "_P") (fmt "IN" l "_N") = u l) ∧
      (∀ m, diff sol (fmt "OUT" m "_P") (fmt "OUT" m "_N") = s m) ∧ diff sol "CLK" "VCM" = clk ∧
      sol.v = clockedPot x u s clk := by
  refine loop_realisable_gain ids S C none (fun h => absurd rfl h) G GT hG hGT hM x u s ?_ clk p hP
  have : damped S.A (leak (absMax S.N S.L S.B) none) = S.A := by
    funext n j
    simp [damped, leak]
  rw [this]
  exact hx

end Cbadc.Circuit
