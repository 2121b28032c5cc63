import Verif.Lemmas.FrontendTextOp
import Verif.Props.GmC

/-! # The printed text of the Gm-C frontend -/

namespace Cbadc.FrontendText

open Cbadc.Circuit Cbadc.Circuit.Spec Cbadc.Cards
open Cbadc.NetlistText (Text)

variable {num : ℝ → Text} {val : Text → Option ℝ} {isFloat : Text → Bool} {ids : String → ℕ → String}

/-! ## Definitions in small letters -/

theorem leaving_none (sol : Sol) (body : List (Line ℝ)) (a : String) (t : ℝ) (h : ∀ l ∈ body, a ∉ l.nodes) :
    leaving sol body a t = 0 := by
  unfold leaving
  apply List.sum_eq_zero
  intro x hx
  obtain ⟨l, hl, rfl⟩ := List.mem_map.1 hx
  unfold inflow
  apply List.sum_eq_zero
  intro y hy
  rw [List.mem_mapIdx] at hy
  obtain ⟨i, hi, rfl⟩ := hy
  rw [if_neg]
  intro e
  exact h l hl (e ▸ List.getElem_mem hi)

/-- A sub-circuit in small letters behaves as the one with the printed names. -/
theorem obeysDef_small {ports : List String} {body : List (Line ℝ)} (hp : ∀ p ∈ ports, ∀ c ∈ p.toList, okU c = true)
    (h : ∀ l ∈ body, Shape l) (law : Law) (v i : ℕ → ℝ → ℝ) :
    ObeysDef law ⟨ports.map fun p => plain p.toList, body.map small⟩ v i ↔ ObeysDef law ⟨ports, body⟩ v i := by
  constructor
  · rintro ⟨sol, h1, h2, h3⟩
    refine ⟨pull sol, fun l hl => (obeys_small (h l hl) law sol).1 (h1 _ (List.mem_map_of_mem hl)), ?_, ?_⟩
    · intro k hk
      obtain ⟨e1, e2⟩ := h2 k (by simpa using hk)
      simp only [List.getElem_map] at e1 e2
      refine ⟨e1, e2.trans ?_⟩
      funext t
      exact leaving_small h sol (hp _ (List.getElem_mem hk)) t
    · intro a ha t
      by_cases hu : ∀ c ∈ a.toList, okU c = true
      · rw [← leaving_small h sol hu]
        refine h3 _ ?_ t
        intro hm
        obtain ⟨p, hpm, e⟩ := List.mem_map.1 hm
        exact ha ((plain_inj (hp p hpm) hu).1 e ▸ hpm)
      · exact leaving_none _ _ _ _ fun l hl hm => hu ((h l hl).1 a hm)
  · rintro ⟨sol, h1, h2, h3⟩
    refine ⟨push sol, ?_, ?_, ?_⟩
    · intro l hl
      obtain ⟨k, hk, rfl⟩ := List.mem_map.1 hl
      exact obeys_push (h k hk) (h1 k hk)
    · intro k hk
      have hk' : k < ports.length := by simpa using hk
      obtain ⟨e1, e2⟩ := h2 k hk'
      simp only [List.getElem_map]
      refine ⟨(push_v sol (hp _ (List.getElem_mem hk'))).trans e1, e2.trans ?_⟩
      funext t
      exact (leaving_push h sol (hp _ (List.getElem_mem hk')) t).symm
    · intro a ha t
      by_cases hn : ∃ l ∈ body, ∃ b ∈ l.nodes, plain b.toList = a
      · obtain ⟨l, hl, b, hb, rfl⟩ := hn
        rw [leaving_push h sol ((h l hl).1 b hb)]
        exact h3 b (fun hm => ha (List.mem_map.2 ⟨b, hm, rfl⟩)) t
      · apply leaving_none
        intro l hl hm
        obtain ⟨k, hk, rfl⟩ := List.mem_map.1 hl
        obtain ⟨b, hb, e⟩ := List.mem_map.1 hm
        exact hn ⟨k, hk, b, hb, e⟩

/-! ## The lines -/

theorem inst_fmt2' (l : Char) (a : String) (n m : ℕ) (r : List Char) (ha : a.toList = l :: r)
    (hr : ∀ c ∈ r, okL c = true) : InstOk l (fmt2 a n m) := by
  refine ⟨r ++ (Nat.toDigits 10 n ++ '_' :: Nat.toDigits 10 m), ?_, fun c hc => ?_⟩
  · unfold fmt2
    simp [String.toList_append, ha]
  · rcases List.mem_append.1 hc with hc | hc
    · exact hr c hc
    · rcases List.mem_append.1 hc with hc | hc
      · exact (digits_ok n c hc).2
      · rcases List.mem_cons.1 hc with rfl | hc
        · decide
        · exact (digits_ok m c hc).2

theorem otaName_ok (k : ℕ) : fmt "multi_input_ota_" k "" ≠ "" ∧ ∀ c ∈ (fmt "multi_input_ota_" k "").toList, okL c = true :=
  ⟨fmt_ne_empty _ _ _ (by decide), fmt_chars (by decide) (by decide) fun c hc => (digits_ok k c hc).2⟩

theorem otaPorts_ok (N L M : ℕ) : ∀ p ∈ multiOtaPins N L M, NodeOk p := by
  intro p hp
  rcases (pins_mem N L M p).1 hp with rfl | rfl | rfl | ⟨n, _, q, rfl⟩ | ⟨n, _, q, rfl⟩ | ⟨n, _, q, rfl⟩
  · exact supply_ok _ (by simp)
  · exact supply_ok _ (by simp)
  · exact supply_ok _ (by simp)
  all_goals exact node_ok _ _ _ (by simp) (by cases q <;> simp [sfx])

theorem otaHubs_ok (N L M : ℕ) : ∀ a ∈ (multiOtaPins N L M).map OaPart.ctl.hubPin, NodeOk a := by
  intro a ha
  obtain ⟨p, hp, rfl⟩ := List.mem_map.1 ha
  rcases (pins_mem N L M p).1 hp with rfl | rfl | rfl | ⟨n, _, q, rfl⟩ | ⟨n, _, q, rfl⟩ | ⟨n, _, q, rfl⟩
  · rw [hubPin_supply _ (by simp)]; exact supply_ok _ (by simp)
  · rw [hubPin_supply _ (by simp)]; exact supply_ok _ (by simp)
  · rw [hubPin_supply _ (by simp)]; exact supply_ok _ (by simp)
  · rw [hubPin_x]; exact node_ok _ _ _ (by simp) (by cases q <;> simp [sfx])
  · rw [hubPin_in]; exact node_ok _ _ _ (by simp) (by cases q <;> simp [sfx])
  · rw [hubPin_s]; exact node_ok _ _ _ (by simp) (by cases q <;> simp [sfx])

theorem gmNet_ok (N L M : ℕ) (C : ℝ) (hC : Legible num val (2 * C)) :
    ∀ l ∈ gmNet N L M C, LineOk num val l ∧ ∀ g, l.dev ≠ .vccs g := by
  intro l hl
  unfold gmNet at hl
  rw [List.mem_cons, List.mem_flatMap] at hl
  rcases hl with rfl | ⟨n, _, hl⟩
  · refine ⟨⟨control_ok _ _ _, ?_⟩, fun g h => by cases h⟩
    exact ⟨⟨['d', 'c'], (by decide : "Xdc".toList = 'X' :: ['d', 'c']), by decide⟩, by decide, by decide⟩
  · simp only [List.mem_cons, List.not_mem_nil, or_false] at hl
    rcases hl with rfl | rfl | rfl
    · refine ⟨⟨otaHubs_ok _ _ _, ?_⟩, fun g h => by cases h⟩
      exact ⟨inst_fmt 'X' "Xgm" n "" ['g', 'm'] (by decide) (by decide) (by decide), otaName_ok n⟩
    · refine ⟨⟨fun a ha => ?_, ?_⟩, fun g h => by cases h⟩
      · simp only [List.mem_cons, List.not_mem_nil, or_false] at ha
        rcases ha with rfl | rfl
        · exact node_ok _ _ _ (by simp) (by simp)
        · exact supply_ok _ (by simp)
      · exact ⟨inst_fmt 'C' "Cp_" n "" ['p', '_'] (by decide) (by decide) (by decide), rfl, hC.1, hC.2⟩
    · refine ⟨⟨fun a ha => ?_, ?_⟩, fun g h => by cases h⟩
      · simp only [List.mem_cons, List.not_mem_nil, or_false] at ha
        rcases ha with rfl | rfl
        · exact supply_ok _ (by simp)
        · exact node_ok _ _ _ (by simp) (by simp)
      · exact ⟨inst_fmt 'C' "Cn_" n "" ['n', '_'] (by decide) (by decide) (by decide), rfl, hC.1, hC.2⟩

theorem otaNet_ok (k : ℕ) (kd : Kind) (J : ℕ) (F : ℕ → ℝ) (C : ℝ)
    (hF : ∀ j < J, F j ≠ 0 → Legible num val |F j * C|) : ∀ l ∈ otaNet k kd J F C, LineOk num val l := by
  intro l hl
  unfold otaNet at hl
  simp only [List.mem_flatMap, List.mem_range] at hl
  obtain ⟨j, hj, hl⟩ := hl
  by_cases h0 : F j ≠ 0
  · rw [if_pos h0, List.mem_singleton] at hl
    subst hl
    have hk : kd.pin ∈ ["IN", "X", "OUT", "S", "VGND_"] := by cases kd <;> simp [Kind.pin]
    have hb1 : (if F j * C < 0 then "_P" else "_N") ∈ ["_P", "_N"] := by split <;> simp
    have hb2 : (if F j * C < 0 then "_N" else "_P") ∈ ["_P", "_N"] := by split <;> simp
    have hv := hF j hj h0
    refine ⟨fun a ha => ?_, ?_⟩
    · simp only [List.mem_cons, List.not_mem_nil, or_false] at ha
      rcases ha with rfl | rfl | rfl | rfl
      · exact node_ok _ _ _ (by simp) (by simp)
      · exact node_ok _ _ _ (by simp) (by simp)
      · exact node_ok _ _ _ hk hb1
      · exact node_ok _ _ _ hk hb2
    · refine ⟨?_, rfl, hv.1, hv.2⟩
      cases kd
      · exact inst_fmt2' 'G' "G_b_" k j ['_', 'b', '_'] (by decide) (by decide)
      · exact inst_fmt2' 'G' "G_a_" k j ['_', 'a', '_'] (by decide) (by decide)
      · exact inst_fmt2' 'G' "G_gamma_" k j ['_', 'g', 'a', 'm', 'm', 'a', '_'] (by decide) (by decide)
  · rw [if_neg h0] at hl
    cases hl

theorem gainNet_ok (k : ℕ) (b C : ℝ) (gain : Option ℝ) (h : ∀ g, gain = some g → Legible num val (2 * (g / (b * C)))) :
    ∀ l ∈ gainNet k b C gain, LineOk num val l := by
  intro l hl
  rcases gain with _ | g
  · cases hl
  · have hv := h g rfl
    simp only [gainNet, List.mem_cons, List.not_mem_nil, or_false] at hl
    rcases hl with rfl | rfl
    · refine ⟨fun a ha => ?_, ?_⟩
      · simp only [List.mem_cons, List.not_mem_nil, or_false] at ha
        rcases ha with rfl | rfl
        · exact node_ok _ _ _ (by simp) (by simp)
        · exact supply_ok _ (by simp)
      · exact ⟨⟨['p'], (by decide : "Rp".toList = 'R' :: ['p']), by decide⟩, rfl, hv.1, hv.2⟩
    · refine ⟨fun a ha => ?_, ?_⟩
      · simp only [List.mem_cons, List.not_mem_nil, or_false] at ha
        rcases ha with rfl | rfl
        · exact supply_ok _ (by simp)
        · exact node_ok _ _ _ (by simp) (by simp)
      · exact ⟨⟨['n'], (by decide : "Rn".toList = 'R' :: ['n']), by decide⟩, rfl, hv.1, hv.2⟩

theorem moNet_ok (S : Analog.Sys ℝ) (G : ℕ → ℕ → ℝ) (k : ℕ) (C : ℝ) (gain : Option ℝ)
    (hA : ∀ j < S.N, S.A k j ≠ 0 → Legible num val |S.A k j * C|)
    (hB : ∀ j < S.L, S.B k j ≠ 0 → Legible num val |S.B k j * C|)
    (hG : ∀ j < S.M, G k j ≠ 0 → Legible num val |G k j * C|)
    (hg : ∀ g, gain = some g → Legible num val (2 * (g / (absMax S.N S.L S.B * C)))) :
    ∀ l ∈ moNet S G k C gain, LineOk num val l := by
  intro l hl
  unfold moNet at hl
  simp only [List.mem_append] at hl
  rcases hl with ((hl | hl) | hl) | hl
  · exact otaNet_ok _ _ _ _ _ hA l hl
  · exact otaNet_ok _ _ _ _ _ hB l hl
  · exact otaNet_ok _ _ _ _ _ hG l hl
  · exact gainNet_ok _ _ _ _ hg l hl

theorem loop_terms (pre src : String) (k J : ℕ) (F : ℕ → ℝ) (C : ℝ) {P : ℝ → Prop} (hF : ∀ j < J, F j ≠ 0 → P |F j * C|) :
    ∀ e ∈ parts (otaLoop pre src k J F C), ∀ g, e.dev = .vccs g → e.terms.length = 6 ∧ P g := by
  intro e he g hd
  unfold otaLoop at he
  rw [parts_flatMap, List.mem_flatMap] at he
  obtain ⟨j, hj, he⟩ := he
  by_cases h0 : F j ≠ 0
  · rw [if_pos h0, coupling_parts, List.mem_singleton] at he
    subst he
    cases hd
    exact ⟨rfl, hF j (List.mem_range.1 hj) h0⟩
  · rw [if_neg h0] at he
    cases he

/-- The definition of a transconductor is read as its lines. -/
theorem multiOta_read (S : Analog.Sys ℝ) (G : ℕ → ℕ → ℝ) (hS : S.Gamma = some G) (k : ℕ) (C : ℝ) (gain : Option ℝ)
    (hz : gain ≠ none → absMax S.N S.L S.B * C ≠ 0)
    (hA : ∀ j < S.N, S.A k j ≠ 0 → Legible num val |S.A k j * C| ∧ isFloat (num |S.A k j * C|) = true)
    (hB : ∀ j < S.L, S.B k j ≠ 0 → Legible num val |S.B k j * C| ∧ isFloat (num |S.B k j * C|) = true)
    (hG : ∀ j < S.M, G k j ≠ 0 → Legible num val |G k j * C| ∧ isFloat (num |G k j * C|) = true)
    (hg : ∀ g, gain = some g → Legible num val (2 * (g / (absMax S.N S.L S.B * C)))) :
    ∃ t, multiOtaText num isFloat ids S k C gain = .ok t ∧ readDef val t =
      some (fmt "multi_input_ota_" k "", ⟨(multiOtaPins S.N S.L S.M).map fun p => plain p.toList,
        (moNet S G k C gain).map fun l => small (onLine (seen num val) l)⟩) := by
  have hnd : ((Sub.empty.parts ++ parts (multiOtaOps S G k C (absMax S.N S.L S.B) gain)).map Part.inst).Nodup := by
    change ((parts (multiOtaOps S G k C (absMax S.N S.L S.B) gain)).map Part.inst).Nodup
    rw [mo_insts]
    exact (moParts_nodup S G k gain).map (MoPart.inst_inj k)
  have hrun := run_eq (Obj.name ids) (multiOtaOps S G k C (absMax S.N S.L S.B) gain) .empty hnd
  have hdef := multiOta_def ids S G hS k C gain hz
  unfold multiOta at hdef
  rw [hS] at hdef
  dsimp only at hdef
  rw [if_neg (fun h => hz h.1 h.2), hrun] at hdef
  simp only [Except.ok.injEq, Sub.definition, Def.mk.injEq] at hdef
  obtain ⟨hports, hnet⟩ := hdef
  unfold multiOtaText
  rw [hS]
  dsimp only
  rw [if_neg (fun h => hz h.1 h.2), hrun]
  dsimp only
  have hok := moNet_ok S G k C gain (fun j a b => (hA j a b).1) (fun j a b => (hB j a b).1) (fun j a b => (hG j a b).1) hg
  obtain ⟨t, h1, h2⟩ := sub_read (num := num) (val := val) (isFloat := isFloat) (ids := ids) (fmt "multi_input_ota_" k "")
    (otaName_ok k).1 (otaName_ok k).2 (multiOtaPins S.N S.L S.M)
    ⟨Sub.empty.parts ++ parts (multiOtaOps S G k C (absMax S.N S.L S.B) gain),
      Wires.connects (Obj.name ids) (conns (multiOtaOps S G k C (absMax S.N S.L S.B) gain)) Sub.empty.wires⟩
    (fun p hp => ⟨by
      have := List.map_inj_left.1 (hports.trans (List.map_id _).symm) p hp
      exact this, otaPorts_ok _ _ _ p hp⟩)
    (fun e he => by
      change e ∈ parts (multiOtaOps S G k C (absMax S.N S.L S.B) gain) at he
      unfold multiOtaOps at he
      simp only [parts_append, List.mem_append] at he
      intro g hd
      rcases he with ((he | he) | he) | he
      · exact loop_terms (P := fun g => isFloat (num g) = true) _ _ _ _ _ _ (fun j a b => (hA j a b).2) e he g hd
      · exact loop_terms (P := fun g => isFloat (num g) = true) _ _ _ _ _ _ (fun j a b => (hB j a b).2) e he g hd
      · exact loop_terms (P := fun g => isFloat (num g) = true) _ _ _ _ _ _ (fun j a b => (hG j a b).2) e he g hd
      · rcases gain with _ | g'
        · cases he
        · simp only [otaGain, parts, List.mem_cons, List.not_mem_nil, or_false] at he
          rcases he with rfl | rfl <;> cases hd)
    (by rw [hnet]; exact hok)
  refine ⟨t, h1, ?_⟩
  rw [h2, hnet]

/-! ## Rounding -/

/-- the entry of a matrix that a transconductance read with an error stands for, `C` being the capacitance -/
noncomputable def ofGm (ρ : ℝ → ℝ) (C v : ℝ) : ℝ := v * (ρ |v * C| / |v * C|) / (ρ (2 * C) / (2 * C))

theorem ofGm_zero (ρ : ℝ → ℝ) (C : ℝ) : ofGm ρ C 0 = 0 := by simp [ofGm]

theorem ofGm_spec {ε C v : ℝ} (hε : ε < 1) (hC : C ≠ 0) (hv : v ≠ 0) (h1 : Near num val ε (2 * C))
    (h2 : Near num val ε |v * C|) :
    ofGm (seen num val) C v ≠ 0 ∧
      |ofGm (seen num val) C v * (seen num val (2 * C) / 2)| = seen num val |v * C| ∧
      (ofGm (seen num val) C v * (seen num val (2 * C) / 2) < 0 ↔ v * C < 0) ∧
      |ofGm (seen num val) C v - v| ≤ 2 * ε / (1 - ε) * |v| := by
  have hvc : v * C ≠ 0 := mul_ne_zero hv hC
  have ha : |v * C| ≠ 0 := abs_ne_zero.2 hvc
  have h2C : 2 * C ≠ 0 := mul_ne_zero two_ne_zero hC
  obtain ⟨f, hf, f1, f2⟩ := near_factor h2C h1
  obtain ⟨g, hg, g1, g2⟩ := near_factor ha h2
  have hf0 : 0 < f := by linarith
  have hg0 : 0 < g := by linarith
  have e : ofGm (seen num val) C v = v * (g / f) := by
    unfold ofGm
    rw [hf, hg]
    field_simp
  have e2 : ofGm (seen num val) C v * (seen num val (2 * C) / 2) = g * (v * C) := by
    rw [e, hf]
    field_simp
  refine ⟨?_, ?_, ?_, ?_⟩
  · rw [e]; positivity
  · rw [e2, abs_mul, abs_of_pos hg0, hg]
  · rw [e2]
    constructor
    · intro h
      by_contra hn
      have : 0 ≤ g * (v * C) := mul_nonneg hg0.le (not_lt.1 hn)
      linarith
    · intro h
      exact mul_neg_of_pos_of_neg hg0 h
  · rw [e]
    have e3 : v * (g / f) - v = (g / f - 1) * v := by ring
    rw [e3, abs_mul]
    refine mul_le_mul_of_nonneg_right ?_ (abs_nonneg v)
    have p1 : 0 < 1 - ε := by linarith
    have hε0 : 0 ≤ ε := by linarith
    have e4 : g / f - 1 = (g - f) / f := by field_simp
    rw [e4, abs_div, abs_of_pos hf0, div_le_div_iff₀ hf0 p1]
    have : |g - f| ≤ 2 * ε := by
      rw [abs_le]
      constructor <;> linarith
    calc |g - f| * (1 - ε) ≤ 2 * ε * (1 - ε) := mul_le_mul_of_nonneg_right this p1.le
      _ ≤ 2 * ε * f := mul_le_mul_of_nonneg_left f1 (by linarith)

/-- The system with the entries that are read. -/
noncomputable def gmSys (ρ : ℝ → ℝ) (S : Analog.Sys ℝ) (G : ℕ → ℕ → ℝ) (C : ℝ) : Analog.Sys ℝ :=
  { S with
    A := fun n j => ofGm ρ C (S.A n j)
    B := fun n j => ofGm ρ C (S.B n j)
    Gamma := some fun n j => ofGm ρ C (G n j) }

theorem otaNet_seen (k : ℕ) (kd : Kind) (J : ℕ) (F : ℕ → ℝ) {ε C : ℝ} (hε : ε < 1) (hC : C ≠ 0)
    (h1 : Near num val ε (2 * C)) (hF : ∀ j < J, F j ≠ 0 → Near num val ε |F j * C|) :
    (otaNet k kd J F C).map (onLine (seen num val)) =
      otaNet k kd J (fun j => ofGm (seen num val) C (F j)) (seen num val (2 * C) / 2) := by
  unfold otaNet
  rw [List.map_flatMap]
  apply flatMap_congr_range
  intro j hj
  by_cases h0 : F j ≠ 0
  · obtain ⟨e0, e1, e2, _⟩ := ofGm_spec hε hC h0 h1 (hF j hj h0)
    rw [if_pos h0, if_pos e0]
    simp only [List.map_cons, List.map_nil, onLine, onDev, e1]
    by_cases hv : F j * C < 0
    · rw [if_pos hv, if_pos hv, if_pos (e2.2 hv), if_pos (e2.2 hv)]
    · rw [if_neg hv, if_neg hv, if_neg (fun x => hv (e2.1 x)), if_neg (fun x => hv (e2.1 x))]
  · have e0 : ofGm (seen num val) C (F j) = 0 := by rw [not_not.1 h0, ofGm_zero]
    rw [if_neg h0, if_neg (not_not.2 e0)]
    rfl

theorem absMax_zero {N L : ℕ} {B : ℕ → ℕ → ℝ} : absMax N L B = 0 ↔ ∀ n < N, ∀ l < L, B n l = 0 := by
  have hm : ∀ x, x ∈ ((List.range N).flatMap fun n => (List.range L).map fun l => |B n l|) ↔
      ∃ n < N, ∃ l < L, |B n l| = x := by
    intro x
    simp [List.mem_flatMap]
  obtain ⟨h1, h2, h3⟩ := foldl_max ((List.range N).flatMap fun n => (List.range L).map fun l => |B n l|) 0
  unfold absMax
  constructor
  · intro h n hn l hl
    have := h2 _ ((hm _).2 ⟨n, hn, l, hl, rfl⟩)
    rw [h] at this
    exact abs_nonpos_iff.1 this
  · intro h
    rcases h3 with h3 | h3
    · exact h3
    · obtain ⟨n, hn, l, hl, e⟩ := (hm _).1 h3
      rw [← e, h n hn l hl, abs_zero]

/-- the gain that the resistors, read with errors, stand for -/
noncomputable def ofGain (ρ : ℝ → ℝ) (b b' C : ℝ) : Option ℝ → Option ℝ
  | none => none
  | some g => some (ρ (2 * (g / (b * C))) * (b' * (ρ (2 * C) / 2)) / 2)

theorem gainNet_seen (k : ℕ) (ρ : ℝ → ℝ) (b b' C : ℝ) (gain : Option ℝ) (h : gain ≠ none → b' * (ρ (2 * C) / 2) ≠ 0) :
    (gainNet k b C gain).map (onLine ρ) = gainNet k b' (ρ (2 * C) / 2) (ofGain ρ b b' C gain) := by
  rcases gain with _ | g
  · rfl
  · have h := h (by simp)
    have e : 2 * (ρ (2 * (g / (b * C))) * (b' * (ρ (2 * C) / 2)) / 2 / (b' * (ρ (2 * C) / 2))) =
        ρ (2 * (g / (b * C))) :=
      (fun R X (hX : X ≠ 0) => by field_simp : ∀ R X : ℝ, X ≠ 0 → 2 * (R * X / 2 / X) = R) _ _ h
    simp only [gainNet, ofGain, e, List.map_cons, List.map_nil, onLine, onDev]

theorem moNet_seen (S : Analog.Sys ℝ) (G : ℕ → ℕ → ℝ) (k : ℕ) {ε C : ℝ} (gain : Option ℝ) (hε : ε < 1) (hC : C ≠ 0)
    (h1 : Near num val ε (2 * C))
    (hA : ∀ j < S.N, S.A k j ≠ 0 → Near num val ε |S.A k j * C|)
    (hB : ∀ j < S.L, S.B k j ≠ 0 → Near num val ε |S.B k j * C|)
    (hG : ∀ j < S.M, G k j ≠ 0 → Near num val ε |G k j * C|)
    (h : gain ≠ none →
      absMax S.N S.L (gmSys (seen num val) S G C).B * (seen num val (2 * C) / 2) ≠ 0) :
    (moNet S G k C gain).map (onLine (seen num val)) =
      moNet (gmSys (seen num val) S G C) (fun n j => ofGm (seen num val) C (G n j)) k (seen num val (2 * C) / 2)
        (ofGain (seen num val) (absMax S.N S.L S.B) (absMax S.N S.L (gmSys (seen num val) S G C).B) C gain) := by
  unfold moNet
  simp only [List.map_append, otaNet_seen k _ _ _ hε hC h1 hA, otaNet_seen k _ _ _ hε hC h1 hB,
    otaNet_seen k _ _ _ hε hC h1 hG, gainNet_seen k _ _ _ _ _ h]
  rfl

theorem gmNet_seen (N L M : ℕ) (ρ : ℝ → ℝ) (C : ℝ) :
    (gmNet N L M C).map (onLine ρ) = gmNet N L M (ρ (2 * C) / 2) := by
  have e : 2 * (ρ (2 * C) / 2) = ρ (2 * C) := by ring
  unfold gmNet
  rw [List.map_cons, List.map_flatMap, e]
  rfl

theorem gm_close {N J : ℕ} {F : ℕ → ℕ → ℝ} {ε C : ℝ} (hε : ε < 1) (hC : C ≠ 0) (h1 : Near num val ε (2 * C))
    (hF : ∀ n < N, ∀ j < J, F n j ≠ 0 → Near num val ε |F n j * C|) :
    Close (2 * ε / (1 - ε)) N J (fun n j => ofGm (seen num val) C (F n j)) F := by
  intro n hn j hj
  by_cases h0 : F n j = 0
  · show |ofGm (seen num val) C (F n j) - F n j| ≤ _
    rw [h0, ofGm_zero]
    simp
  · exact (ofGm_spec hε hC h0 h1 (hF n hn j hj h0)).2.2.2

/-- The rate of discharge that is read. -/
theorem leak_close {ε b b' C : ℝ} {gain : Option ℝ} (hε : ε < 1) (hC : C ≠ 0) (h1 : Near num val ε (2 * C))
    (hg : ∀ g, gain = some g → g ≠ 0 ∧ b ≠ 0 ∧ b' ≠ 0 ∧ Near num val ε (2 * (g / (b * C)))) :
    |leak b' (ofGain (seen num val) b b' C gain) - leak b gain| ≤ (1 / (1 - ε) ^ 2 - 1) * |leak b gain| := by
  rcases gain with _ | g
  · simp [ofGain, leak]
  · obtain ⟨g0, b0, b0', hn⟩ := hg g rfl
    have h2C : 2 * C ≠ 0 := mul_ne_zero two_ne_zero hC
    have hr : 2 * (g / (b * C)) ≠ 0 := mul_ne_zero two_ne_zero (div_ne_zero g0 (mul_ne_zero b0 hC))
    obtain ⟨f, hf, f1, f2⟩ := near_factor h2C h1
    obtain ⟨h, hh, h1, h2⟩ := near_factor hr hn
    have hf0 : 0 < f := by linarith
    have hh0 : 0 < h := by linarith
    have e : leak b' (ofGain (seen num val) b b' C (some g)) = leak b (some g) / (f * h) := by
      simp only [ofGain, leak]
      rw [hf, hh]
      field_simp
    rw [e]
    have e2 : leak b (some g) / (f * h) - leak b (some g) = (1 / (f * h) - 1) * leak b (some g) := by field_simp
    rw [e2, abs_mul]
    refine mul_le_mul_of_nonneg_right ?_ (abs_nonneg _)
    have hε0 : 0 ≤ ε := by linarith
    have l1 : (1 - ε) ^ 2 ≤ f * h := by nlinarith
    have l2 : f * h ≤ (1 + ε) ^ 2 := by nlinarith
    have p1 : 0 < 1 - ε := by linarith
    have a1 : 1 / (f * h) ≤ 1 / (1 - ε) ^ 2 := one_div_le_one_div_of_le (by positivity) l1
    have a2 : 1 / (1 + ε) ^ 2 ≤ 1 / (f * h) := one_div_le_one_div_of_le (by positivity) l2
    have a3 : 2 ≤ 1 / (1 - ε) ^ 2 + 1 / (1 + ε) ^ 2 := by
      rw [div_add_div _ _ (by positivity) (by positivity), le_div_iff₀ (by positivity)]
      have b1 : ε ^ 2 ≤ 1 := by nlinarith
      have b2 : 0 ≤ ε ^ 2 * (1 - ε ^ 2) := mul_nonneg (sq_nonneg _) (by linarith)
      nlinarith [sq_nonneg ε]
    rw [abs_le]
    constructor <;> linarith

end Cbadc.FrontendText
