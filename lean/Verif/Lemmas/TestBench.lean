import Verif.Lemmas.OpAmp
import Verif.Spec.TestBench

/-! # Lemmas on the nodes of the test bench and on its clock -/

namespace Cbadc.TestBench
open Circuit Circuit.Spec

/-- The parts of the test bench. -/
inductive Part
  | vdd | vss | vclk | aobs | xaf
  | vin (p : Bool) (l : ℕ)

/-- Their instance names. -/
def Part.inst : Part → String
  | .vdd => "Vdd" | .vss => "Vss" | .vclk => "Vclk" | .aobs => "Aobs" | .xaf => "Xaf"
  | .vin p l => vinName p l

theorem inst_inj : Function.Injective Part.inst := by
  intro x y h
  rcases x with _ | _ | _ | _ | _ | ⟨_ | _, l1⟩ <;> rcases y with _ | _ | _ | _ | _ | ⟨_ | _, l2⟩ <;>
    simp only [Part.inst, vinName] at h <;>
    first
      | rfl
      | (exact absurd h (by decide))
      | (names at h; done)
      | (names at h; rw [h])

/-- The hub of a pin. -/
def Part.hubPin : Part → String → String
  | _, s => if s = "VSS" then "0" else s

/-- The hub of a numbered terminal. -/
def Part.hubNum : Part → ℕ → String
  | .vdd, 0 => "VDD" | .vdd, _ => "VCM"
  | .vss, 0 => "VCM" | .vss, _ => "0"
  | .vclk, 0 => "CLK" | .vclk, _ => "0"
  | .vin true l, 0 => fmt "IN" l "_P" | .vin true _, _ => "VCM"
  | .vin false _, 0 => "VCM" | .vin false l, _ => fmt "IN" l "_N"
  | .aobs, 0 => "CLK" | .aobs, k + 1 => fmt "OUT" k "_P"
  | .xaf, _ => "?"

theorem hubPin_fmt (a : String) (l : ℕ) (b : String) (ha : ∃ c r, a.toList = c :: r ∧ c ≠ 'V') :
    Part.xaf.hubPin (fmt a l b) = fmt a l b := by
  show (if fmt a l b = "VSS" then "0" else fmt a l b) = _
  rw [if_neg]
  intro h
  obtain ⟨c, r, hc, hs⟩ := ha
  have := congrArg String.toList h
  unfold fmt at this
  rw [String.toList_append, hc] at this
  exact hs (List.cons.inj this).1

theorem conns_ok (n M : ℕ) : ∀ c ∈ conns n M,
    (∃ (q : Part) (s : String), c = (.own (q.hubPin s), .pin q.inst s)) ∨
      ∃ (q : Part) (k : ℕ), c = (.own (q.hubNum k), .num q.inst k) := by
  intro c hc
  unfold conns supplyConns frontendConns at hc
  simp only [List.mem_append, List.mem_cons, List.not_mem_nil, or_false, List.mem_flatMap, List.mem_range] at hc
  rcases hc with (((h | h | h | h | h | h) | h) | h) | (((h | h | h | h) | h) | h)
  · exact Or.inr ⟨.vdd, 1, h⟩
  · exact Or.inr ⟨.vdd, 0, h⟩
  · exact Or.inr ⟨.vss, 1, h⟩
  · exact Or.inr ⟨.vss, 0, h⟩
  · exact Or.inr ⟨.vclk, 0, h⟩
  · exact Or.inr ⟨.vclk, 1, h⟩
  · obtain ⟨l, _, h⟩ := h
    unfold inputConns at h
    simp only [List.mem_cons, List.not_mem_nil, or_false] at h
    rcases h with h | h | h | h
    · exact Or.inr ⟨.vin true l, 0, h⟩
    · exact Or.inr ⟨.vin false l, 1, h⟩
    · exact Or.inr ⟨.vin true l, 1, h⟩
    · exact Or.inr ⟨.vin false l, 0, h⟩
  · exact Or.inr ⟨.aobs, 0, h⟩
  · exact Or.inl ⟨.xaf, "VSS", h⟩
  · exact Or.inl ⟨.xaf, "VDD", h⟩
  · exact Or.inl ⟨.xaf, "CLK", h⟩
  · exact Or.inl ⟨.xaf, "VCM", h⟩
  · obtain ⟨l, _, h⟩ := h
    rcases h with h | h
    · exact Or.inl ⟨.xaf, _, by rw [h, hubPin_fmt "IN" _ _ ⟨'I', ['N'], rfl, by decide⟩]; rfl⟩
    · exact Or.inl ⟨.xaf, _, by rw [h, hubPin_fmt "IN" _ _ ⟨'I', ['N'], rfl, by decide⟩]; rfl⟩
  · obtain ⟨m, _, h⟩ := h
    rcases h with h | h | h
    · exact Or.inr ⟨.aobs, 1 + m, by rw [h, Nat.add_comm 1 m]; rfl⟩
    · exact Or.inl ⟨.xaf, _, by rw [h, hubPin_fmt "OUT" _ _ ⟨'O', ['U', 'T'], rfl, by decide⟩]; rfl⟩
    · exact Or.inl ⟨.xaf, _, by rw [h, hubPin_fmt "OUT" _ _ ⟨'O', ['U', 'T'], rfl, by decide⟩]; rfl⟩

theorem conns_named (n M : ℕ) (ids : String → ℕ → String) : ∀ c ∈ conns n M, c.1.name ids ≠ "" := by
  intro c hc
  unfold conns supplyConns frontendConns at hc
  simp only [List.mem_append, List.mem_cons, List.not_mem_nil, or_false, List.mem_flatMap, List.mem_range] at hc
  rcases hc with (((h | h | h | h | h | h) | h) | h) | (((h | h | h | h) | h) | h)
  case inl.inl.inr =>
    obtain ⟨l, _, h⟩ := h
    unfold inputConns at h
    simp only [List.mem_cons, List.not_mem_nil, or_false] at h
    rcases h with h | h | h | h <;> rw [h] <;>
      first
      | exact fmt_ne_empty _ _ _ (by decide)
      | exact show "VCM" ≠ "" by decide
  case inr.inl.inr =>
    obtain ⟨l, _, h⟩ := h
    rcases h with h | h <;> rw [h] <;> exact fmt_ne_empty _ _ _ (by decide)
  case inr.inr =>
    obtain ⟨l, _, h⟩ := h
    rcases h with h | h | h <;> rw [h] <;> exact fmt_ne_empty _ _ _ (by decide)
  all_goals
    rw [h]
    unfold Obj.name
    dsimp only
    decide

/-- The node of a numbered terminal. -/
theorem node_num (ids : String → ℕ → String) (n M : ℕ) (q : Part) (k : ℕ)
    (h : ((.own (q.hubNum k), .num q.inst k) : Obj × Obj) ∈ conns n M) :
    (Wires.connects (Obj.name ids) (conns n M) .empty).node (Obj.name ids) (.num q.inst k) = q.hubNum k :=
  (hub_node inst_inj Part.hubPin Part.hubNum ids (conns n M) (conns_ok n M) (conns_named n M ids) _ h).2

theorem mem_supply {n M : ℕ} {c : Obj × Obj} (h : c ∈ supplyConns) : c ∈ conns n M := by
  unfold conns
  exact List.mem_append_left _ (List.mem_append_left _ (List.mem_append_left _ h))

theorem mem_input {n M l : ℕ} (hl : l < n) {c : Obj × Obj} (h : c ∈ inputConns l) : c ∈ conns n M := by
  unfold conns
  refine List.mem_append_left _ (List.mem_append_left _ (List.mem_append_right _ ?_))
  exact List.mem_flatMap.mpr ⟨l, List.mem_range.mpr hl, h⟩

theorem line_vdd (ids : String → ℕ → String) (n M : ℕ) (w : Wave) :
    line ids (conns n M) "Vdd" w = ⟨"Vdd", "VDD", "VCM", w⟩ := by
  have h0 := node_num ids n M .vdd 0 (mem_supply (by simp [supplyConns, Part.hubNum, Part.inst]))
  have h1 := node_num ids n M .vdd 1 (mem_supply (by simp [supplyConns, Part.hubNum, Part.inst]))
  simp only [Part.inst, Part.hubNum] at h0 h1
  unfold line
  simp only [h0, h1]

theorem line_vss (ids : String → ℕ → String) (n M : ℕ) (w : Wave) :
    line ids (conns n M) "Vss" w = ⟨"Vss", "VCM", "0", w⟩ := by
  have h0 := node_num ids n M .vss 0 (mem_supply (by simp [supplyConns, Part.hubNum, Part.inst]))
  have h1 := node_num ids n M .vss 1 (mem_supply (by simp [supplyConns, Part.hubNum, Part.inst]))
  simp only [Part.inst, Part.hubNum] at h0 h1
  unfold line
  simp only [h0, h1]

theorem line_vclk (ids : String → ℕ → String) (n M : ℕ) (w : Wave) :
    line ids (conns n M) "Vclk" w = ⟨"Vclk", "CLK", "0", w⟩ := by
  have h0 := node_num ids n M .vclk 0 (mem_supply (by simp [supplyConns, Part.hubNum, Part.inst]))
  have h1 := node_num ids n M .vclk 1 (mem_supply (by simp [supplyConns, Part.hubNum, Part.inst]))
  simp only [Part.inst, Part.hubNum] at h0 h1
  unfold line
  simp only [h0, h1]

theorem line_vin_p (ids : String → ℕ → String) (n M l : ℕ) (hl : l < n) (w : Wave) :
    line ids (conns n M) (vinName true l) w = ⟨vinName true l, fmt "IN" l "_P", "VCM", w⟩ := by
  have h0 := node_num ids n M (.vin true l) 0 (mem_input hl (by simp [inputConns, Part.hubNum, Part.inst]))
  have h1 := node_num ids n M (.vin true l) 1 (mem_input hl (by simp [inputConns, Part.hubNum, Part.inst]))
  simp only [Part.inst, Part.hubNum] at h0 h1
  unfold line
  simp only [h0, h1]

theorem line_vin_n (ids : String → ℕ → String) (n M l : ℕ) (hl : l < n) (w : Wave) :
    line ids (conns n M) (vinName false l) w = ⟨vinName false l, "VCM", fmt "IN" l "_N", w⟩ := by
  have h0 := node_num ids n M (.vin false l) 0 (mem_input hl (by simp [inputConns, Part.hubNum, Part.inst]))
  have h1 := node_num ids n M (.vin false l) 1 (mem_input hl (by simp [inputConns, Part.hubNum, Part.inst]))
  simp only [Part.inst, Part.hubNum] at h0 h1
  unfold line
  simp only [h0, h1]

theorem mapM_ok {α β : Type} (f : α → Res β) (l : List α) (ws : List β) (h : l.mapM f = .ok ws) :
    ws.length = l.length ∧ ∀ (k : ℕ) (a : α), l[k]? = some a → ∃ w, f a = .ok w ∧ ws[k]? = some w := by
  induction l generalizing ws with
  | nil =>
    have : ws = [] := by
      have h' : (.ok [] : Res (List β)) = .ok ws := h
      exact (Except.ok.inj h').symm
    subst this
    exact ⟨rfl, fun k a hk => by simp at hk⟩
  | cons a l ih =>
    rw [List.mapM_cons] at h
    cases hf : f a with
    | error e => rw [hf] at h; cases h
    | ok w =>
      rw [hf] at h
      cases hl : l.mapM f with
      | error e => rw [hl] at h; cases h
      | ok ws' =>
        rw [hl] at h
        have : ws = w :: ws' := by
          have h' : (.ok (w :: ws') : Res (List β)) = .ok ws := h
          exact (Except.ok.inj h').symm
        subst this
        obtain ⟨h1, h2⟩ := ih ws' hl
        refine ⟨by simp [h1], fun k b hk => ?_⟩
        cases k with
        | zero =>
          simp only [List.getElem?_cons_zero, Option.some.injEq] at hk
          subst hk
          exact ⟨w, hf, rfl⟩
        | succ k =>
          simp only [List.getElem?_cons_succ] at hk ⊢
          exact h2 k b hk

theorem mapM_error {α β : Type} (f : α → Res β) (e : Exc) (l : List α) (he : ∀ a ∈ l, ∀ x, f a = .error x → x = e)
    (h : ∃ a ∈ l, f a = .error e) : l.mapM f = .error e := by
  induction l with
  | nil => obtain ⟨a, ha, _⟩ := h; simp at ha
  | cons a l ih =>
    rw [List.mapM_cons]
    cases hf : f a with
    | error x =>
      have := he a List.mem_cons_self x hf
      rw [this]
      rfl
    | ok w =>
      obtain ⟨b, hb, hb2⟩ := h
      have hbl : b ∈ l := by
        rcases List.mem_cons.mp hb with h' | h'
        · rw [h', hf] at hb2; cases hb2
        · exact h'
      rw [ih (fun a ha => he a (List.mem_cons_of_mem _ ha)) ⟨b, hbl, hb2⟩]
      rfl

/-- The source lines of a test bench. -/
theorem lines_mem (ids : String → ℕ → String) (inputs : List Signal) (M : ℕ) (T tt vdd : ℝ)
    (lines : List SourceLine) (h : sourceLines ids inputs M T tt vdd = .ok lines) :
    ∃ waves, inputs.mapM inputWave = .ok waves ∧ ∀ x, x ∈ lines ↔
      (x = ⟨"Vdd", "VDD", "VCM", .dc (vdd / 2)⟩ ∨ x = ⟨"Vss", "VCM", "0", .dc (vdd / 2)⟩ ∨
        x = ⟨"Vclk", "CLK", "0", pulseWave 0 vdd T tt tt⟩) ∨
      ∃ l w, waves[l]? = some w ∧ (x = ⟨vinName true l, fmt "IN" l "_P", "VCM", w⟩ ∨
        x = ⟨vinName false l, "VCM", fmt "IN" l "_N", w⟩) := by
  unfold sourceLines at h
  cases hw : inputs.mapM inputWave with
  | error e => rw [hw] at h; cases h
  | ok waves =>
    rw [hw] at h
    have hl : lines = [line ids (conns inputs.length M) "Vdd" (.dc (vdd / 2)),
        line ids (conns inputs.length M) "Vss" (.dc (vdd / 2)),
        line ids (conns inputs.length M) "Vclk" (pulseWave 0 vdd T tt tt)] ++
        (waves.zipIdx.flatMap fun w => [line ids (conns inputs.length M) (vinName true w.2) w.1,
          line ids (conns inputs.length M) (vinName false w.2) w.1]) := (Except.ok.inj h).symm
    refine ⟨waves, rfl, fun x => ?_⟩
    rw [hl, List.mem_append]
    have hlen := (mapM_ok inputWave inputs waves hw).1
    refine or_congr ?_ ?_
    · simp only [List.mem_cons, List.not_mem_nil, or_false, line_vdd, line_vss, line_vclk]
    · rw [List.mem_flatMap]
      constructor
      · rintro ⟨⟨w, l⟩, hm, hx⟩
        have hg : waves[l]? = some w := List.mem_zipIdx_iff_getElem?.mp hm
        have hlt : l < inputs.length := by
          rw [← hlen]
          by_contra hc
          rw [List.getElem?_eq_none (by omega)] at hg
          cases hg
        refine ⟨l, w, hg, ?_⟩
        simpa only [List.mem_cons, List.not_mem_nil, or_false, line_vin_p ids _ M l hlt,
          line_vin_n ids _ M l hlt] using hx
      · rintro ⟨l, w, hg, hx⟩
        have hlt : l < inputs.length := by
          rw [← hlen]
          by_contra hc
          rw [List.getElem?_eq_none (by omega)] at hg
          cases hg
        refine ⟨(w, l), List.mem_zipIdx_iff_getElem?.mpr hg, ?_⟩
        simpa only [List.mem_cons, List.not_mem_nil, or_false, line_vin_p ids _ M l hlt,
          line_vin_n ids _ M l hlt] using hx

end Cbadc.TestBench
