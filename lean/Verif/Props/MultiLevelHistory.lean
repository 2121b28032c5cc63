import Verif.Props.DigitalControl

/-! # C17: histories of calls on a multi-level control -/

namespace Cbadc.Control
open Spec

variable {K : Type*} [Field K] [LinearOrder K] [IsStrictOrderedRing K] [FloorRing K] {M : ℕ}

omit [IsStrictOrderedRing K] [FloorRing K] in
/-- what an accepted multi-level control has -/
theorem ml_new_ok {T tt2 : K} {levels : List ℕ} {ir : Option (List (IR K))} {offs : List K} {ml : ML K M}
    (hml : ML.new T tt2 M levels ir offs = .ok ml) (m : Fin M) : ml.dc.offsets m = 0 ∧ 1 ≤ ml.n m := by
  unfold ML.new at hml
  split_ifs at hml with h1 h2 h3
  unfold DC.new initOffsets at hml
  split at hml
  · cases hml
  · rename_i dc hdc
    simp only [Except.ok.injEq] at hml
    subst hml
    constructor
    · split_ifs at hdc
      split at hdc
      · cases hdc
      · simp only [Except.ok.injEq] at hdc
        subst hdc
        rfl
    · simp only [List.any_eq_true, beq_iff_eq, exists_eq_right] at h3
      rcases Nat.eq_zero_or_pos (levels.get (m.cast h2.symm)) with h | h
      · exact absurd (h ▸ List.get_mem _ _) h3
      · exact h

/-- a level stored as an integer is 1 if it is the highest one and 0 otherwise -/
theorem store_level (n : ℕ) (hn : 1 ≤ n) (x : K) {q : K} (hq : quantize n x = some q) :
    store true q = if q = 1 then 1 else 0 := by
  obtain ⟨j, hj, h⟩ := C17_range n hn x
  rw [hq] at h
  obtain rfl := Option.some.inj h
  have hn0 : (0 : K) < n := by exact_mod_cast (by omega : 0 < n)
  have h0 : (0 : K) ≤ (j : K) / n := by positivity
  unfold store pyInt
  rw [if_pos rfl, if_pos h0]
  by_cases h1 : (j : K) / n = 1
  · rw [if_pos h1, h1]
    simp
  · rw [if_neg h1]
    have hlt : (j : K) / n < 1 := by
      refine lt_of_le_of_ne ?_ h1
      rw [div_le_one hn0]
      exact_mod_cast hj
    have : ⌊(j : K) / n⌋ = 0 := Int.floor_eq_iff.2 ⟨by simpa using h0, by simpa using hlt⟩
    rw [this]
    simp

omit [IsStrictOrderedRing K] in
theorem ml_intS (ml : ML K M) (ops : List (Op K M)) :
    ((mlRun ml MLState.init ops).intS = false ∧ NoReset ops) ∨ ((mlRun ml MLState.init ops).intS = true ∧ ¬NoReset ops) := by
  induction ops using List.reverseRecOn with
  | nil => exact .inl ⟨rfl, fun _ h => by cases h⟩
  | append_singleton ops op ih =>
    have e : mlRun ml MLState.init (ops ++ [op]) = mlStep ml (mlRun ml MLState.init ops) op := by
      unfold mlRun
      rw [List.foldl_append]
      rfl
    rw [e]
    cases op with
    | update t y =>
      have hN : NoReset (ops ++ [.update t y]) ↔ NoReset ops := by
        constructor
        · intro h o ho
          exact h o (List.mem_append_left _ ho)
        · intro h o ho
          rcases List.mem_append.1 ho with h' | h'
          · exact h o h'
          · exact ⟨t, y, List.mem_singleton.1 h'⟩
      rw [hN]
      exact ih
    | reset =>
      refine .inr ⟨rfl, fun h => ?_⟩
      obtain ⟨t, y, hty⟩ := h .reset (List.mem_append_right _ (List.mem_singleton.2 rfl))
      cases hty

/-- **C17** After any history of updates and resets, the signal and the decision of control `m` depend on its last matching
update since the last reset only: none, and both are zero; one with observation `x`, and the signal is the level `q` of `x`
and the decision `2 q - 1`, except that once the control has been reset anywhere before, all levels but the highest become
zero. -/
theorem C17_history (T tt2 : K) (levels : List ℕ) (ir : Option (List (IR K))) (offs : List K) (ml : ML K M)
    (hml : ML.new T tt2 M levels ir offs = .ok ml) (ops : List (Op K M)) (m : Fin M) :
    let st := (mlRun ml MLState.init ops).st
    let last := (matched (ml.dc.ir m).t0 (tol ml.dc m) m ops).getLast?
    (last = none → st.s m = 0 ∧ st.cur m = 0) ∧
    ∀ x, last = some x → ∃ q, quantize (ml.n m) x = some q ∧ (NoReset ops → st.s m = q) ∧
      (¬NoReset ops → st.s m = if q = 1 then 1 else 0) ∧ st.cur m = 2 * st.s m - 1 := by
  obtain ⟨hoff, hn⟩ := ml_new_ok hml m
  induction ops using List.reverseRecOn with
  | nil => exact ⟨fun _ => ⟨rfl, rfl⟩, fun x hx => by cases hx⟩
  | append_singleton ops op ih =>
    have e : mlRun ml MLState.init (ops ++ [op]) = mlStep ml (mlRun ml MLState.init ops) op := by
      unfold mlRun
      rw [List.foldl_append]
      rfl
    have em : matched (ml.dc.ir m).t0 (tol ml.dc m) m (ops ++ [op]) =
        match op with
        | .update t y => if |t - (ml.dc.ir m).t0| ≤ tol ml.dc m then
            matched (ml.dc.ir m).t0 (tol ml.dc m) m ops ++ [y m] else matched (ml.dc.ir m).t0 (tol ml.dc m) m ops
        | .reset => [] := by
      unfold matched
      rw [List.foldl_append]
      cases op <;> rfl
    intro st last
    have hst : st = (mlStep ml (mlRun ml MLState.init ops) op).st := by rw [← e]
    have hlast : last = _ := congrArg List.getLast? em
    cases op with
    | reset =>
      rw [hlast]
      exact ⟨fun _ => by rw [hst]; exact ⟨rfl, rfl⟩, fun x hx => by cases hx⟩
    | update t y =>
      have hN : NoReset (ops ++ [.update t y]) ↔ NoReset ops := by
        constructor
        · intro h o ho
          exact h o (List.mem_append_left _ ho)
        · intro h o ho
          rcases List.mem_append.1 ho with h' | h'
          · exact h o h'
          · exact ⟨t, y, List.mem_singleton.1 h'⟩
      rw [hN]
      dsimp only at hlast
      by_cases ht : |t - (ml.dc.ir m).t0| ≤ tol ml.dc m
      · rw [if_pos ht, List.getLast?_concat] at hlast
        have ha : allclose t (ml.dc.ir m).t0 ml.dc.tt2 := ht
        rw [hlast]
        refine ⟨fun h => (Option.some_ne_none _ h).elim, fun x hx => ?_⟩
        obtain rfl := Option.some.inj hx
        have hq := C17_value (ml.n m) hn (y m)
        have hs : st.s m = store (mlRun ml MLState.init ops).intS ((count (ml.n m) (y m) : K) / ml.n m) := by
          rw [hst]
          simp only [mlStep, mlUpdate, if_pos ha, hq, Option.getD_some]
        have hc : st.cur m = 2 * st.s m - 1 := by
          rw [hs, hst]
          simp only [mlStep, mlUpdate, if_pos ha, hq, Option.getD_some, hoff, add_zero]
        refine ⟨_, hq, fun h => ?_, fun h => ?_, hc⟩
        · rw [hs]
          rcases ml_intS ml ops with h' | h'
          · rw [h'.1]; rfl
          · exact absurd h h'.2
        · rw [hs]
          rcases ml_intS ml ops with h' | h'
          · exact absurd h'.2 h
          · rw [h'.1]; exact store_level _ hn _ hq
      · rw [if_neg ht] at hlast
        have ha : ¬allclose t (ml.dc.ir m).t0 ml.dc.tt2 := ht
        have hs : st.s m = (mlRun ml MLState.init ops).st.s m := by
          rw [hst]; simp only [mlStep, mlUpdate, if_neg ha]
        have hc : st.cur m = (mlRun ml MLState.init ops).st.cur m := by
          rw [hst]; simp only [mlStep, mlUpdate, if_neg ha]
        rw [hs, hc, hlast]
        exact ih

/-- a control with two levels at the middle one: 1/2 before a reset, 0 after it -/
example : ∃ ml : ML ℚ 1, ML.new (1 : ℚ) 0 1 [2] none [] = .ok ml ∧
    (mlRun ml MLState.init [.update 0 ![1], .update 0 ![0]]).st.s 0 = 1 / 2 ∧
    (mlRun ml MLState.init [.update 0 ![1], .reset, .update 0 ![0]]).st.s 0 = 0 ∧
    (mlRun ml MLState.init [.update 0 ![1], .reset]).st.s 0 = 0 := by
  have hml : ML.new (1 : ℚ) 0 1 [2] none [] = .ok ⟨⟨1, 0, 0, fun _ => stepResponse 0, fun _ => 0⟩, fun _ => 2⟩ := by
    norm_num [ML.new, DC.new, initIR, initOffsets]
  have hq : quantize 2 (0 : ℚ) = some (1 / 2) :=
    ((C17_thresholds 2 (by norm_num) (0 : ℚ) 1 (by norm_num)).mpr (by norm_num)).trans (by norm_num)
  refine ⟨_, hml, ?_, ?_, ?_⟩
  · obtain ⟨q, h1, h2, -, -⟩ := (C17_history _ _ _ _ _ _ hml [.update 0 ![1], .update 0 ![0]] 0).2 0 (by
      norm_num [matched, tol, stepResponse])
    rw [hq] at h1
    rw [h2 (by intro o ho; simp at ho; rcases ho with rfl | rfl <;> exact ⟨_, _, rfl⟩), Option.some.inj h1]
  · obtain ⟨q, h1, -, h2, -⟩ := (C17_history _ _ _ _ _ _ hml [.update 0 ![1], .reset, .update 0 ![0]] 0).2 0 (by
      norm_num [matched, tol, stepResponse])
    rw [hq] at h1
    rw [h2 (by intro h; obtain ⟨t, y, hh⟩ := h .reset (by simp); cases hh), ← Option.some.inj h1]
    norm_num
  · exact ((C17_history _ _ _ _ _ _ hml [.update 0 ![1], .reset] 0).1 (by norm_num [matched, tol, stepResponse])).1

end Cbadc.Control
