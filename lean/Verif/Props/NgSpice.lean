import Mathlib.Tactic.Linarith
import Mathlib.Tactic.NormNum
import Mathlib.Data.List.GetD
import Verif.Model.NgSpice
import Verif.Model.Streams
import Verif.Spec.NgSpice

/-!
# C112, C113: stored control signals and circuit simulations as iterators
-/

namespace Cbadc.NgSpice
open Spec Streams

/-! ## C112: `NumpySimulator` -/

theorem numpy_state {V : Type} (s : NumpySim V) (k : ℕ) :
    stateAfter NumpySim.next s k = { s with rest := s.rest.drop k } := by
  induction k with
  | zero => rfl
  | succ k ih =>
    show (NumpySim.next (stateAfter NumpySim.next s k)).2 = _
    rw [ih]
    unfold NumpySim.next
    by_cases h : k < s.rest.length
    · rw [List.drop_eq_getElem_cons h]
    · have h1 : s.rest.drop k = [] := List.drop_eq_nil_of_le (by omega)
      have h2 : s.rest.drop (k + 1) = [] := List.drop_eq_nil_of_le (by omega)
      rw [h1, h2]

theorem numpy_call {V : Type} (s : NumpySim V) (k : ℕ) :
    call NumpySim.next s k = match s.rest[k]? with
      | some a => .ok a
      | none => .error .stopIteration := by
  unfold call
  rw [numpy_state]
  unfold NumpySim.next
  by_cases h : k < s.rest.length
  · rw [List.drop_eq_getElem_cons h, List.getElem?_eq_getElem h]
  · have h1 : s.rest.drop k = [] := List.drop_eq_nil_of_le (by omega)
    rw [h1, List.getElem?_eq_none (by omega)]

/-- **C112 (part that holds)** for an array or an `.npy` file, `next` delivers the rows in order and then raises
`StopIteration` for good; `reset`, whenever it is called, starts over. -/
theorem C112_partial {V : Type} (src : Source V) (rows : List V) (hs : src = .array rows ∨ src = .npy rows)
    (s : NumpySim V) (j : ℕ) (h : s = .new src ∨ s = (stateAfter NumpySim.next (.new src) j).reset) (k : ℕ) :
    (∀ hk : k < rows.length, call NumpySim.next s k = .ok (.row rows[k])) ∧
    (rows.length ≤ k → call NumpySim.next s k = .error .stopIteration) := by
  have hr : s.rest = rows.map .row := by
    have h1 : s.rest = src.items := by
      rcases h with h | h
      · rw [h]; rfl
      · rw [h, numpy_state]; rfl
    rw [h1]
    rcases hs with hs | hs <;> rw [hs] <;> rfl
  constructor
  · intro hk
    rw [numpy_call, hr, List.getElem?_map, List.getElem?_eq_getElem hk]
    rfl
  · intro hk
    rw [numpy_call, hr, List.getElem?_map, List.getElem?_eq_none hk]
    rfl

/-- **C112 is false for the `.npz` files that the class documents**, whose first item is a name and not a control
vector, and **for every use of the simulator as an iterable**. -/
theorem C112_false : (∃ (src : Source (List ℕ)), src = .npz [("arr_0", [[0, 1], [1, 1]])] ∧
      call NumpySim.next (.new src) 0 = .ok (.name "arr_0") ∧
      call NumpySim.next (.new src) 1 = .error .stopIteration) ∧
    ∀ (s : NumpySim (List ℕ)), s.iter = .error .typeError :=
  ⟨⟨_, rfl, rfl, rfl⟩, fun _ => rfl⟩

/-- `C112_partial`: A non-trivial case of C112. -/
example : call NumpySim.next (.new (.array [[0, 1], [1, 1]])) 1 = .ok (Item.row [1, 1]) ∧
    call NumpySim.next (stateAfter NumpySim.next (.new (.array [[0, 1], [1, 1]])) 2).reset 0 =
      .ok (Item.row [0, 1]) := ⟨rfl, rfl⟩

/-! ## C113: `NGSpiceSimulator` -/

theorem digit (x : ℝ) : IsDigit x (floatToTernary x) := by
  unfold IsDigit floatToTernary
  by_cases h1 : x > 2 / 3
  · rw [if_pos h1]
    exact Or.inr (Or.inr ⟨h1, rfl⟩)
  · rw [if_neg h1]
    by_cases h2 : x < 1 / 3
    · rw [if_pos h2]
      exact Or.inl ⟨h2, rfl⟩
    · rw [if_neg h2]
      exact Or.inr (Or.inl ⟨not_lt.mp h2, not_lt.mp h1, rfl⟩)

theorem edges_succ (low : ℕ → Prop) (n : ℕ) [Decidable (low n ∧ (n = 0 ∨ ¬ low (n - 1)))] : edges low (n + 1) =
    edges low n ++ if low n ∧ (n = 0 ∨ ¬ low (n - 1)) then [n] else [] := by
  unfold edges
  rw [List.range_succ, List.filter_append]
  congr 1
  by_cases h : low n ∧ (n = 0 ∨ ¬ low (n - 1))
  · simp only [List.filter_cons, h, List.filter_nil]
    simp
  · simp only [List.filter_cons, h, List.filter_nil]
    simp

/-- What the loop of `parse` has done after the first `n` time points. -/
theorem parse_inv (sz : ℕ) (vcm : ℝ) (raw : Raw) (cv : ℕ → ℕ → ℝ) (n : ℕ) :
    let st := (List.range n).foldl (step sz vcm raw) ⟨false, 0, cv⟩
    let es := edges (fun i => raw.clk i ≤ vcm) n
    (st.trigger = true ↔ n ≠ 0 ∧ raw.clk (n - 1) ≤ vcm) ∧ st.index = min sz es.length ∧
    ∀ k, st.cv k = if k < sz ∧ k < es.length
      then fun m => floatToTernary (raw.v (es.getD k 0) m / (vcm * 2)) else cv k := by
  induction n with
  | zero =>
    refine ⟨by simp, by simp [edges], fun k => ?_⟩
    simp [edges]
  | succ n ih =>
    rw [List.range_succ, List.foldl_append]
    intro st es
    obtain ⟨h1, h2, h3⟩ := ih
    have hst : st = step sz vcm raw ((List.range n).foldl (step sz vcm raw) ⟨false, 0, cv⟩) n := rfl
    clear_value st
    have hes : es = edges (fun i => raw.clk i ≤ vcm) n ++
        if raw.clk n ≤ vcm ∧ (n = 0 ∨ ¬ raw.clk (n - 1) ≤ vcm) then [n] else [] :=
      edges_succ (fun i => raw.clk i ≤ vcm) n
    clear_value es
    generalize (List.range n).foldl (step sz vcm raw) ⟨false, 0, cv⟩ = s0 at *
    generalize edges (fun i => raw.clk i ≤ vcm) n = e0 at *
    have hT : s0.trigger = false ↔ (n = 0 ∨ ¬ raw.clk (n - 1) ≤ vcm) := by
      rw [← Bool.not_eq_true, h1]
      tauto
    have hn : n + 1 - 1 = n := by omega
    have hn0 : n + 1 ≠ 0 := by omega
    rw [hn]
    unfold step at hst
    by_cases hc : s0.trigger = false ∧ raw.clk n ≤ vcm
    · rw [if_pos hc] at hst
      have he : raw.clk n ≤ vcm ∧ (n = 0 ∨ ¬ raw.clk (n - 1) ≤ vcm) := ⟨hc.2, hT.mp hc.1⟩
      rw [if_pos he] at hes
      have hlen : es.length = e0.length + 1 := by rw [hes, List.length_append]; rfl
      by_cases hi : s0.index < sz
      · rw [if_pos hi] at hst
        have hi2 : s0.index = e0.length := by omega
        refine ⟨?_, ?_, ?_⟩
        · rw [hst]
          simp [hc.2]
        · rw [hst, hlen]
          show s0.index + 1 = _
          omega
        · intro k
          rw [hst]
          show Function.update s0.cv s0.index _ k = _
          by_cases hk : k = s0.index
          · subst hk
            rw [Function.update_self, if_pos ⟨hi, by omega⟩]
            have : es.getD s0.index 0 = n := by
              rw [hes, hi2, List.getD_append_right _ _ _ _ (le_refl _), Nat.sub_self]
              rfl
            rw [this]
          · rw [Function.update_of_ne hk, h3 k]
            by_cases hk2 : k < sz ∧ k < e0.length
            · rw [if_pos hk2, if_pos ⟨hk2.1, by omega⟩]
              have : es.getD k 0 = e0.getD k 0 := by
                rw [hes, List.getD_append _ _ _ _ hk2.2]
              rw [this]
            · rw [if_neg hk2, if_neg (by omega)]
      · rw [if_neg hi] at hst
        refine ⟨?_, ?_, ?_⟩
        · rw [hst]
          simp [hc.2]
        · rw [hst, hlen]
          show s0.index = _
          omega
        · intro k
          rw [hst]
          show s0.cv k = _
          rw [h3 k]
          by_cases hk2 : k < sz ∧ k < e0.length
          · rw [if_pos hk2, if_pos ⟨hk2.1, by omega⟩]
            have : es.getD k 0 = e0.getD k 0 := by
              rw [hes, List.getD_append _ _ _ _ hk2.2]
            rw [this]
          · rw [if_neg hk2, if_neg (by omega)]
    · rw [if_neg hc] at hst
      have he : ¬(raw.clk n ≤ vcm ∧ (n = 0 ∨ ¬ raw.clk (n - 1) ≤ vcm)) :=
        fun h => hc ⟨hT.mpr h.2, h.1⟩
      rw [if_neg he, List.append_nil] at hes
      subst hes
      have hcv : st.cv = s0.cv := by
        rw [hst]
        split_ifs <;> rfl
      have hidx : st.index = s0.index := by
        rw [hst]
        split_ifs <;> rfl
      refine ⟨?_, by rw [hidx, h2], fun k => by rw [hcv, h3 k]⟩
      by_cases hd : s0.trigger = true ∧ raw.clk n > vcm
      · rw [if_pos hd] at hst
        rw [hst]
        have : ¬ raw.clk n ≤ vcm := not_le.mpr hd.2
        simp [this]
      · rw [if_neg hd] at hst
        rw [hst]
        cases hb : s0.trigger
        · have : ¬ raw.clk n ≤ vcm := fun h => hc ⟨hb, h⟩
          simp [this]
        · have : raw.clk n ≤ vcm := not_lt.mp fun h => hd ⟨hb, h⟩
          simp [this]

/-- The `k`-th control vector read from the raw file. -/
theorem parse_row (sz : ℕ) (vcm : ℝ) (raw : Raw) (k : ℕ) :
    (parse sz vcm raw fun _ _ => 0).cv k = if k < sz ∧ k < (edges (fun i => raw.clk i ≤ vcm) raw.n).length
      then fun m => floatToTernary (raw.v ((edges (fun i => raw.clk i ≤ vcm) raw.n).getD k 0) m / (vcm * 2))
      else fun _ => 0 :=
  (parse_inv sz vcm raw (fun _ _ => 0) raw.n).2.2 k

theorem lazy_done (sz : ℕ) (vcm : ℝ) (raw : Raw) (s : Sim) (h : s.made = true ∧ s.ran = true ∧ s.parsed = true) :
    s.lazy sz vcm raw = s := by
  unfold Sim.lazy
  rw [h.1, h.2.1, h.2.2]
  rfl

/-- The simulator with its iterator at the row `p`. -/
def Sim.at (s : Sim) (p : ℕ) : Sim := ⟨s.made, s.ran, s.parsed, s.cv, p, s.runs⟩

theorem next_done (sz : ℕ) (vcm : ℝ) (raw : Raw) (s : Sim) (h : s.made = true ∧ s.ran = true ∧ s.parsed = true)
    (p : ℕ) : (s.at p).next sz vcm raw =
      if p < sz then (.ok (s.cv p), s.at (p + 1)) else (.error .stopIteration, s.at p) := by
  unfold Sim.next
  rw [lazy_done sz vcm raw (s.at p) h]
  rfl

theorem lazy_flags (sz : ℕ) (vcm : ℝ) (raw : Raw) (s : Sim) :
    (s.lazy sz vcm raw).made = true ∧ (s.lazy sz vcm raw).ran = true ∧ (s.lazy sz vcm raw).parsed = true := by
  unfold Sim.lazy
  cases h1 : s.made <;> cases h2 : s.ran <;> cases h3 : s.parsed <;>
    simp [Sim.makeNetlist, Sim.run, Sim.parse, h1, h2, h3]

theorem next_new (sz : ℕ) (vcm : ℝ) (raw : Raw) :
    Sim.new.next sz vcm raw = ((Sim.new.lazy sz vcm raw).at 0).next sz vcm raw := by
  rw [next_done sz vcm raw _ (lazy_flags sz vcm raw Sim.new)]
  rfl

theorem sim_state (sz : ℕ) (vcm : ℝ) (raw : Raw) (k : ℕ) :
    stateAfter (Sim.next sz vcm raw) .new (k + 1) = (Sim.new.lazy sz vcm raw).at (min sz (k + 1)) := by
  have hfl := lazy_flags sz vcm raw Sim.new
  induction k with
  | zero =>
    show (Sim.next sz vcm raw Sim.new).2 = _
    rw [next_new, next_done sz vcm raw _ hfl]
    by_cases h : 0 < sz
    · rw [if_pos h]
      have : min sz 1 = 0 + 1 := by omega
      rw [this]
    · rw [if_neg h]
      have : min sz 1 = 0 := by omega
      rw [this]
  | succ k ih =>
    show (Sim.next sz vcm raw (stateAfter (Sim.next sz vcm raw) .new (k + 1))).2 = _
    rw [ih, next_done sz vcm raw _ hfl]
    by_cases h : min sz (k + 1) < sz
    · rw [if_pos h]
      have : min sz (k + 1 + 1) = min sz (k + 1) + 1 := by omega
      rw [this]
    · rw [if_neg h]
      have : min sz (k + 1 + 1) = min sz (k + 1) := by omega
      rw [this]

/-- **C113** for every recorded waveform, a new simulator delivers `ceil(t_end / T)` control vectors and then
raises `StopIteration` for good; ngspice is run once.  The `k`-th vector holds the digits (0, 1/2 or 1, by thirds
of the supply voltage `2 * vcm`) of the control terminals at the `k`-th time point at which the clock has become
low, and zeros when there are fewer such time points. -/
theorem C113_vectors (tEnd T vcm : ℝ) (raw : Raw) (k : ℕ) :
    let es := edges (fun i => raw.clk i ≤ vcm) raw.n
    (k < ⌈tEnd / T⌉₊ → ∃ s, call (Sim.next (size tEnd T) vcm raw) .new k = .ok s ∧
      (∀ h : k < es.length, ∀ m, IsDigit (raw.v es[k] m / (2 * vcm)) (s m)) ∧ (es.length ≤ k → ∀ m, s m = 0)) ∧
    (⌈tEnd / T⌉₊ ≤ k → call (Sim.next (size tEnd T) vcm raw) .new k = .error .stopIteration) ∧
    (stateAfter (Sim.next (size tEnd T) vcm raw) .new (k + 1)).runs = 1 := by
  intro es
  have hsz : size tEnd T = ⌈tEnd / T⌉₊ := rfl
  rw [hsz]
  generalize ⌈tEnd / T⌉₊ = sz at *
  have hfl := lazy_flags sz vcm raw Sim.new
  have hcall : call (Sim.next sz vcm raw) .new k =
      if k < sz then .ok ((Sim.new.lazy sz vcm raw).cv k) else .error .stopIteration := by
    unfold call
    cases k with
    | zero =>
      show (Sim.next sz vcm raw Sim.new).1 = _
      rw [next_new, next_done sz vcm raw _ hfl]
      split_ifs <;> rfl
    | succ k =>
      rw [sim_state, next_done sz vcm raw _ hfl]
      by_cases h : k + 1 < sz
      · have e : min sz (k + 1) = k + 1 := by omega
        rw [e, if_pos h, if_pos h]
      · have e : ¬ min sz (k + 1) < sz := by omega
        rw [if_neg e, if_neg h]
  have hcv : (Sim.new.lazy sz vcm raw).cv = (parse sz vcm raw fun _ _ => 0).cv := rfl
  refine ⟨fun hk => ⟨_, by rw [hcall, if_pos hk], ?_, ?_⟩, fun hk => by rw [hcall, if_neg (by omega)], ?_⟩
  · intro h m
    have hg : (edges (fun i => raw.clk i ≤ vcm) raw.n).getD k 0 = es[k] := List.getD_eq_getElem _ _ h
    rw [hcv, parse_row, if_pos ⟨hk, h⟩, hg]
    have : (2 : ℝ) * vcm = vcm * 2 := mul_comm _ _
    rw [this]
    exact digit _
  · intro h m
    have : ¬(k < sz ∧ k < (edges (fun i => raw.clk i ≤ vcm) raw.n).length) := by
      intro hh
      exact absurd hh.2 (not_lt.mpr h)
    rw [hcv, parse_row, if_neg this]
  · rw [sim_state]
    rfl

/-- A non-trivial case of C113: six time points, the clock low at the first, the third and the fourth; the second
vector holds the digits at the third. -/
example : ∃ s, call (Sim.next (size 3 1) (1 / 2)
      ⟨6, fun i => if i = 0 ∨ i = 2 ∨ i = 3 then 0 else 1, fun i m => if i = 2 ∧ m = 1 then 1 else 0⟩) .new 1 = .ok s ∧
      s 1 = 1 ∧ s 0 = 0 := by
  have hT : (1 : ℕ) < ⌈(3 : ℝ) / 1⌉₊ := by
    rw [Nat.lt_ceil]
    norm_num
  have he : edges (fun i => (if i = 0 ∨ i = 2 ∨ i = 3 then (0 : ℝ) else 1) ≤ 1 / 2) 6 = [0, 2] := by
    unfold edges
    simp [List.range_succ]
    norm_num
  obtain ⟨s, h1, h2, _⟩ := (C113_vectors 3 1 (1 / 2)
    ⟨6, fun i => if i = 0 ∨ i = 2 ∨ i = 3 then 0 else 1, fun i m => if i = 2 ∧ m = 1 then 1 else 0⟩ 1).1 hT
  simp only [he] at h2
  refine ⟨s, h1, ?_, ?_⟩
  · have := h2 (by decide) 1
    simp only [List.getElem_cons_succ, List.getElem_cons_zero, and_self, if_true] at this
    rcases this with h | h | h
    · norm_num at h
    · norm_num at h
    · exact h.2
  · have := h2 (by decide) 0
    rcases this with h | h | h
    · exact h.2
    · norm_num at h
    · norm_num at h

end Cbadc.NgSpice
