import Verif.Model.Sampled
import Verif.Props.NgSpice

/-!
# C167: the sampled states of a circuit simulation
-/

namespace Cbadc.NgSpice
open Spec

theorem item_control (raw : RawStates) (M N : ℕ) (vcm : ℝ) (i : ℕ) :
    slice 1 (M + 1) (raw.item M N vcm i) = (List.range M).map fun m => raw.v i m / (vcm * 2) := by
  unfold slice RawStates.item
  rw [List.cons_append, List.cons_append, List.take_succ_cons, List.drop_succ_cons, List.drop_zero, List.append_assoc,
    List.take_left' (by simp)]

theorem item_states (raw : RawStates) (M N : ℕ) (vcm : ℝ) (i : ℕ) :
    slice (1 + M) (1 + M + N) (raw.item M N vcm i) = (List.range N).map (raw.xp i) := by
  unfold slice RawStates.item
  have e : raw.clk i :: ((List.range M).map fun m => raw.v i m / (vcm * 2)) ++ (List.range N).map (raw.xp i)
      ++ (List.range N).map (raw.xn i) = (raw.clk i :: (List.range M).map fun m => raw.v i m / (vcm * 2)) ++
        ((List.range N).map (raw.xp i) ++ (List.range N).map (raw.xn i)) := by simp
  have hl : (raw.clk i :: (List.range M).map fun m => raw.v i m / (vcm * 2)).length = 1 + M := by simp; omega
  rw [e, List.drop_take, List.drop_left' hl]
  have : 1 + M + N - (1 + M) = N := by omega
  rw [this, List.take_left' (by simp)]

theorem item_clk (raw : RawStates) (M N : ℕ) (vcm : ℝ) (i : ℕ) : (raw.item M N vcm i).getD 0 0 = raw.clk i := rfl

/-- Both loops of `parse` keep the same books. -/
theorem states_inv (sz M N : ℕ) (vcm : ℝ) (raw : RawStates) (n : ℕ) :
    let st := (List.range n).foldl (stepStates sz M N vcm raw)
      ⟨false, 0, fun _ => List.replicate M 0, fun _ => List.replicate N 0⟩
    let p := (List.range n).foldl (step sz vcm raw.toRaw) ⟨false, 0, fun _ _ => 0⟩
    let es := edges (fun i => raw.clk i ≤ vcm) n
    st.trigger = p.trigger ∧ st.index = p.index ∧ (∀ k, st.cv k = (List.range M).map (p.cv k)) ∧
    ∀ k, st.sv k = if k < sz ∧ k < es.length then (List.range N).map (raw.xp (es.getD k 0)) else List.replicate N 0 := by
  induction n with
  | zero =>
    refine ⟨rfl, rfl, fun k => ?_, fun k => ?_⟩
    · exact List.ext_getElem (by simp) fun i h1 h2 => by simp
    · simp [edges]
  | succ n ih =>
    obtain ⟨h1, h2, -⟩ := parse_inv sz vcm raw.toRaw (fun _ _ => 0) n
    obtain ⟨a1, a2, a3, a4⟩ := ih
    rw [List.range_succ, List.foldl_append, List.foldl_append]
    simp only [List.foldl_cons, List.foldl_nil]
    rw [edges_succ (fun i => raw.clk i ≤ vcm) n]
    generalize (List.range n).foldl (stepStates sz M N vcm raw)
      ⟨false, 0, fun _ => List.replicate M 0, fun _ => List.replicate N 0⟩ = st at *
    generalize (List.range n).foldl (step sz vcm raw.toRaw) ⟨false, 0, fun _ _ => 0⟩ = p at *
    generalize edges (fun i => raw.clk i ≤ vcm) n = e0 at *
    have hT : p.trigger = false ↔ (n = 0 ∨ ¬ raw.clk (n - 1) ≤ vcm) := by
      rw [← Bool.not_eq_true, h1]
      tauto
    unfold stepStates step
    simp only [item_clk, item_control, item_states, a1, a2]
    by_cases hc : p.trigger = false ∧ raw.clk n ≤ vcm
    · rw [if_pos hc, if_pos hc]
      have he : raw.clk n ≤ vcm ∧ (n = 0 ∨ ¬ raw.clk (n - 1) ≤ vcm) := ⟨hc.2, hT.mp hc.1⟩
      rw [if_pos he]
      by_cases hi : p.index < sz
      · rw [if_pos hi, if_pos hi]
        have hi2 : p.index = e0.length := by omega
        refine ⟨rfl, rfl, fun k => ?_, fun k => ?_⟩
        · show Function.update st.cv p.index _ k = (List.range M).map (Function.update p.cv p.index _ k)
          by_cases hk : k = p.index
          · subst hk
            rw [Function.update_self, Function.update_self, List.map_map]
            rfl
          · rw [Function.update_of_ne hk, Function.update_of_ne hk, a3]
        · show Function.update st.sv p.index _ k = _
          by_cases hk : k = p.index
          · subst hk
            rw [Function.update_self, if_pos ⟨hi, by simp; omega⟩]
            have : (e0 ++ [n]).getD p.index 0 = n := by
              rw [hi2, List.getD_append_right _ _ _ _ (le_refl _), Nat.sub_self]
              rfl
            rw [this]
          · rw [Function.update_of_ne hk, a4 k]
            by_cases hk2 : k < sz ∧ k < e0.length
            · rw [if_pos hk2, if_pos ⟨hk2.1, by simp; omega⟩, List.getD_append _ _ _ _ hk2.2]
            · rw [if_neg hk2, if_neg (by simp; omega)]
      · rw [if_neg hi, if_neg hi]
        refine ⟨rfl, rfl, a3, fun k => ?_⟩
        show st.sv k = _
        rw [a4 k]
        by_cases hk2 : k < sz ∧ k < e0.length
        · rw [if_pos hk2, if_pos ⟨hk2.1, by simp; omega⟩, List.getD_append _ _ _ _ hk2.2]
        · rw [if_neg hk2, if_neg (by simp; omega)]
    · rw [if_neg hc, if_neg hc]
      have he : ¬(raw.clk n ≤ vcm ∧ (n = 0 ∨ ¬ raw.clk (n - 1) ≤ vcm)) :=
        fun h => hc ⟨hT.mpr h.2, h.1⟩
      rw [if_neg he, List.append_nil]
      by_cases hd : p.trigger = true ∧ raw.clk n > vcm
      · rw [if_pos hd, if_pos hd]
        exact ⟨rfl, rfl, a3, a4⟩
      · rw [if_neg hd, if_neg hd]
        exact ⟨a1, a2, a3, a4⟩

/-- **C167 (part that holds)** for every recorded waveform: row `k` of the recorded states and row `k` of the control
signal belong to the same time point, the `k`-th at which the clock has become low; the row of the states holds the
voltages of the positive terminals of all states there, the row of the control signal the digits of the control
terminals.  Rows without such a time point are zero. -/
theorem C167_samples_partial (size M N : ℕ) (vcm : ℝ) (raw : RawStates) (k : ℕ) :
    let es := edges (fun i => raw.clk i ≤ vcm) raw.n
    let st := parseStates size M N vcm raw
    (k < size → ∀ h : k < es.length,
      ((st.sv k).length = N ∧ ∀ n < N, (st.sv k).getD n 0 = raw.xp es[k] n) ∧
      (st.cv k).length = M ∧ ∀ m < M, IsDigit (raw.v es[k] m / (2 * vcm)) ((st.cv k).getD m 0)) ∧
    (¬ (k < size ∧ k < es.length) → st.sv k = List.replicate N 0 ∧ st.cv k = List.replicate M 0) := by
  intro es st
  obtain ⟨-, -, h3, h4⟩ := states_inv size M N vcm raw raw.n
  obtain ⟨-, -, p3⟩ := parse_inv size vcm raw.toRaw (fun _ _ => 0) raw.n
  have e3 : ∀ k, st.cv k = _ := h3
  have e4 : ∀ k, st.sv k = _ := h4
  constructor
  · intro hk h
    have hg : (edges (fun i => raw.clk i ≤ vcm) raw.n).getD k 0 = es[k] := List.getD_eq_getElem _ _ h
    rw [e3, e4, p3, if_pos ⟨hk, h⟩, if_pos ⟨hk, h⟩, hg]
    refine ⟨⟨by simp, fun n hn => ?_⟩, by simp, fun m hm => ?_⟩
    · rw [List.getD_eq_getElem _ _ (by simpa using hn)]
      simp
    · rw [List.getD_eq_getElem _ _ (by simpa using hm), List.getElem_map, List.getElem_range, mul_comm 2 vcm]
      exact digit _
  · intro h
    rw [e3, e4, p3, if_neg h, if_neg h]
    exact ⟨rfl, List.ext_getElem (by simp) fun i h1 h2 => by simp⟩

/-- **C167 is false for the state itself**: the state of the analog system is the voltage between the two terminals of a
state, the recorded number is that of the positive terminal alone.  Here the terminals are at `3/4` and `1/4`. -/
theorem C167_state_false : ∃ raw : RawStates, (parseStates 1 1 1 (1 / 2) raw).sv 0 = [3 / 4] ∧
    edges (fun i => raw.clk i ≤ 1 / 2) raw.n = [0] ∧ raw.xp 0 0 - raw.xn 0 0 = 1 / 2 := by
  refine ⟨⟨⟨1, fun _ => 0, fun _ _ => 1⟩, fun _ _ => 3 / 4, fun _ _ => 1 / 4⟩, ?_, ?_, by norm_num⟩
  · have he : edges (fun i => (0 : ℝ) ≤ 1 / 2) 1 = [0] := by
      unfold edges
      simp
    obtain ⟨-, -, -, h4⟩ := states_inv 1 1 1 (1 / 2)
      ⟨⟨1, fun _ => 0, fun _ _ => 1⟩, fun _ _ => 3 / 4, fun _ _ => 1 / 4⟩ 1
    have := h4 0
    simp only [he] at this
    exact this
  · unfold edges
    simp

/-- **C167 is false for the table**: `get_sampled_state_trajectories` raises `ValueError`, whatever has been recorded. -/
theorem C167_table_false (size N : ℕ) (T : ℝ) (sv : ℕ → List ℝ) : sampledStates size N T sv = .error .valueError := rfl

/-- `C167_samples_partial`: A non-trivial case of C167: five time points, two clock edges, two states. -/
example : let raw : RawStates := ⟨⟨5, fun i => if i = 0 ∨ i = 3 then 0 else 1, fun _ _ => 1⟩,
      fun i n => (i : ℝ) + 10 * n, fun _ _ => 0⟩
    (parseStates 2 1 2 (1 / 2) raw).sv 1 = [3, 13] := by
  intro raw
  have he : edges (fun i => (if i = 0 ∨ i = 3 then (0 : ℝ) else 1) ≤ 1 / 2) 5 = [0, 3] := by
    unfold edges
    simp [List.range_succ]
    norm_num
  obtain ⟨-, -, -, h4⟩ := states_inv 2 1 2 (1 / 2) raw 5
  have := h4 1
  simp only [raw, he] at this
  refine this.trans ?_
  norm_num [List.range_succ]

end Cbadc.NgSpice
