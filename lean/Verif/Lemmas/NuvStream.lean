import Verif.Model.Nuv
import Verif.Model.Streams
import Mathlib.Tactic.Ring
import Mathlib.Tactic.Linarith

/-! Helper lemmas for the NUV estimator: how it reads decisions and delivers estimates. -/

namespace Cbadc.Nuv

open Matrix Cbadc.Estimator Cbadc.Streams

variable {N P M L : ℕ}

/-- The decision used for position `i` of the stream. -/
def smp (src : ℕ → Res (Fin M → ℝ)) (i : ℕ) : Fin M → ℝ :=
  match src i with
  | .ok s => s
  | .error _ => 0

/-- Position `i` of the stream is not a decision. -/
def dead (src : ℕ → Res (Fin M → ℝ)) (i : ℕ) : Bool :=
  match src i with
  | .ok _ => false
  | .error _ => true

/-- Position `i` of the stream is a decision or a `RuntimeError`. -/
def Soft (src : ℕ → Res (Fin M → ℝ)) (i : ℕ) : Prop := src i = .error .runtimeError ∨ ∃ s, src i = .ok s

theorem inputs_fit (f : Est N P M L) (s : Fin M → ℝ) : ∀ j (st : State N P M L), 0 < j → st.count + j ≤ f.K3 →
    f.inputs s j st = (.ok (decide (f.K3 ≤ st.count + j)),
      { st with cs := fun k => if st.count ≤ k ∧ k < st.count + j then valued s else st.cs k, count := st.count + j }) := by
  intro j
  induction j with
  | zero => intro st h; omega
  | succ j ih =>
    intro st _ hle
    rw [Est.inputs, Est.input, if_neg (by omega)]
    dsimp only
    by_cases hj : j = 0
    · subst hj
      rw [if_pos rfl]
      have e1 : decide (f.K3 - 1 < st.count + 1) = decide (f.K3 ≤ st.count + (0 + 1)) := by
        rw [decide_eq_decide]; omega
      have e2 : Function.update st.cs st.count (valued s) =
          fun k => if st.count ≤ k ∧ k < st.count + (0 + 1) then valued s else st.cs k := by
        funext k
        rw [Function.update_apply]
        by_cases hk : k = st.count
        · rw [if_pos hk, if_pos (by omega)]
        · rw [if_neg hk, if_neg (by omega)]
      rw [e1, e2]
    · rw [if_neg hj, ih _ (by omega) (by dsimp only; omega)]
      dsimp only
      have e1 : decide (f.K3 ≤ st.count + 1 + j) = decide (f.K3 ≤ st.count + (j + 1)) := by
        rw [decide_eq_decide]; omega
      have e2 : (fun k => if st.count + 1 ≤ k ∧ k < st.count + 1 + j then valued s else
          Function.update st.cs st.count (valued s) k) =
          fun k => if st.count ≤ k ∧ k < st.count + (j + 1) then valued s else st.cs k := by
        funext k
        rw [Function.update_apply]
        by_cases hk : k = st.count
        · rw [if_neg (by omega), if_pos hk, if_pos (by omega)]
        · rw [if_neg hk]
          by_cases hk' : st.count ≤ k ∧ k < st.count + (j + 1)
          · rw [if_pos (by omega), if_pos hk']
          · rw [if_neg (by omega), if_neg hk']
      rw [e1, e2, show st.count + 1 + j = st.count + (j + 1) by omega]

theorem inputs_over (f : Est N P M L) (s : Fin M → ℝ) : ∀ j (st : State N P M L), st.count ≤ f.K3 →
    f.K3 < st.count + j → ∃ cs, f.inputs s j st = (.error .exception, { st with cs := cs, count := f.K3 }) := by
  intro j
  induction j with
  | zero => intro st h1 h2; omega
  | succ j ih =>
    intro st h1 h2
    rw [Est.inputs, Est.input]
    by_cases hc : st.count = f.K3
    · rw [if_pos hc]
      exact ⟨st.cs, by rw [← hc]⟩
    · rw [if_neg hc]
      dsimp only
      rw [if_neg (by omega)]
      obtain ⟨cs, h⟩ := ih { st with cs := Function.update st.cs st.count (valued s), count := st.count + 1 }
        (by dsimp only; omega) (by dsimp only; omega)
      exact ⟨cs, h⟩

/-- The state with one more decision read. -/
def read (src : ℕ → Res (Fin M → ℝ)) (st : State N P M L) : State N P M L :=
  { st with calls := st.calls + 1, stop := st.stop || dead src st.calls }

theorem fill_step (f : Est N P M L) (src : ℕ → Res (Fin M → ℝ)) (fuel : ℕ) (st : State N P M L)
    (hs : Soft src st.calls) {r : Res Bool} {st' : State N P M L}
    (h : f.inputs (smp src st.calls) f.os (read src st) = (r, st')) :
    f.fill src (fuel + 1) st = match r with
      | .error e => (.error e, st')
      | .ok full => if full then (.ok (), st') else f.fill src fuel st' := by
  rcases hs with hs | ⟨s, hs⟩
  · have h1 : read src st = { st with calls := st.calls + 1, stop := true } := by
      simp [read, dead, hs]
    have h2 : smp src st.calls = 0 := by simp [smp, hs]
    rw [h1, h2] at h
    rw [Est.fill, hs]
    dsimp only
    rw [h]
    cases r <;> rfl
  · have h1 : read src st = { st with calls := st.calls + 1 } := by
      simp [read, dead, hs]
    have h2 : smp src st.calls = s := by simp [smp, hs]
    rw [h1, h2] at h
    rw [Est.fill, hs]
    dsimp only
    rw [h]
    cases r <;> rfl

/-- The state after `q` rounds of the reading loop that fit into the buffer. -/
def reads (src : ℕ → Res (Fin M → ℝ)) (os q : ℕ) (st : State N P M L) : State N P M L :=
  { st with
    cs := fun k => if st.count ≤ k ∧ k < st.count + q * os then
      valued (smp src (st.calls + (k - st.count) / os)) else st.cs k
    count := st.count + q * os
    calls := st.calls + q
    stop := st.stop || (List.range q).any fun i => dead src (st.calls + i) }

theorem reads_zero (src : ℕ → Res (Fin M → ℝ)) (os : ℕ) (st : State N P M L) : reads src os 0 st = st := by
  have e : (fun k => if st.count ≤ k ∧ k < st.count + 0 * os then
      valued (smp src (st.calls + (k - st.count) / os)) else st.cs k) = st.cs := by
    funext k
    rw [if_neg (by omega)]
  unfold reads
  rw [e]
  simp

theorem reads_succ (src : ℕ → Res (Fin M → ℝ)) {os : ℕ} (hos : 0 < os) (q : ℕ) (st : State N P M L) :
    reads src os q { read src st with
      cs := fun k => if st.count ≤ k ∧ k < st.count + os then valued (smp src st.calls) else st.cs k
      count := st.count + os } = reads src os (q + 1) st := by
  unfold reads read
  dsimp only
  have hm : (q + 1) * os = q * os + os := Nat.succ_mul q os
  have e1 : (fun k => if st.count + os ≤ k ∧ k < st.count + os + q * os then
        valued (smp src (st.calls + 1 + (k - (st.count + os)) / os))
      else if st.count ≤ k ∧ k < st.count + os then valued (smp src st.calls) else st.cs k) =
      fun k => if st.count ≤ k ∧ k < st.count + (q + 1) * os then
        valued (smp src (st.calls + (k - st.count) / os)) else st.cs k := by
    funext k
    rw [hm]
    by_cases hk : st.count + os ≤ k ∧ k < st.count + os + q * os
    · rw [if_pos hk, if_pos (by omega), show k - st.count = (k - (st.count + os)) + os by omega,
        Nat.add_div_right _ hos, show st.calls + 1 + (k - (st.count + os)) / os =
          st.calls + ((k - (st.count + os)) / os + 1) by omega]
    · rw [if_neg hk]
      by_cases hk' : st.count ≤ k ∧ k < st.count + os
      · rw [if_pos hk', if_pos (by omega), Nat.div_eq_of_lt (by omega), add_zero]
      · rw [if_neg hk', if_neg (by omega)]
  have e2 : (st.stop || dead src st.calls || (List.range q).any fun i => dead src (st.calls + 1 + i)) =
      (st.stop || (List.range (q + 1)).any fun i => dead src (st.calls + i)) := by
    rw [List.range_succ_eq_map, List.any_cons, List.any_map, Bool.or_assoc]
    congr 2
    congr 1
    funext i
    show _ = dead src (st.calls + (i + 1))
    rw [show st.calls + (i + 1) = st.calls + 1 + i by omega]
  rw [e1, e2, show st.count + os + q * os = st.count + (q + 1) * os by omega,
    show st.calls + 1 + q = st.calls + (q + 1) by omega]

theorem reads_right (src : ℕ → Res (Fin M → ℝ)) {os : ℕ} (hos : 0 < os) : ∀ (q : ℕ) (st : State N P M L),
    { read src (reads src os q st) with
      cs := fun k => if (reads src os q st).count ≤ k ∧ k < (reads src os q st).count + os then
        valued (smp src (reads src os q st).calls) else (reads src os q st).cs k
      count := (reads src os q st).count + os } = reads src os (q + 1) st := by
  intro q
  induction q with
  | zero =>
    intro st
    rw [reads_zero, ← reads_succ src hos 0 st, reads_zero]
  | succ q ih =>
    intro st
    rw [← reads_succ src hos q st, ih, reads_succ src hos (q + 1) st]

/-- Rounds that leave the buffer incomplete. -/
theorem fill_more (f : Est N P M L) (src : ℕ → Res (Fin M → ℝ)) (hos : 0 < f.os) : ∀ q fuel (st : State N P M L),
    st.count + q * f.os < f.K3 → (∀ i < q, Soft src (st.calls + i)) →
    f.fill src (q + fuel) st = f.fill src fuel (reads src f.os q st) := by
  intro q
  induction q with
  | zero => intro fuel st _ _; rw [reads_zero, Nat.zero_add]
  | succ q ih =>
    intro fuel st hq hs
    rw [Nat.succ_mul] at hq
    rw [show q + 1 + fuel = (q + fuel) + 1 by omega,
      fill_step f src _ st (hs 0 (by omega)) (inputs_fit f _ f.os _ hos (by show st.count + f.os ≤ _; omega))]
    dsimp only
    rw [if_neg (by show ¬ decide (f.K3 ≤ st.count + f.os) = true; simp; omega),
      ih fuel _ (by show st.count + f.os + q * f.os < _; omega) (fun i hi => by
        show Soft src (st.calls + 1 + i)
        rw [show st.calls + 1 + i = st.calls + (i + 1) by omega]
        exact hs (i + 1) (by omega))]
    congr 1
    exact reads_succ src hos q st

/-- The buffer is filled exactly. -/
theorem fill_soft (f : Est N P M L) (src : ℕ → Res (Fin M → ℝ)) (hos : 0 < f.os) (q fuel : ℕ) (st : State N P M L)
    (hq : 0 < q) (hf : q ≤ fuel) (hc : st.count + q * f.os = f.K3) (hs : ∀ i < q, Soft src (st.calls + i)) :
    f.fill src fuel st = (.ok (), reads src f.os q st) := by
  obtain ⟨q, rfl⟩ : ∃ n, q = n + 1 := ⟨q - 1, by omega⟩
  obtain ⟨fuel, rfl⟩ : ∃ n, fuel = q + (n + 1) := ⟨fuel - q - 1, by omega⟩
  rw [Nat.succ_mul] at hc
  rw [fill_more f src hos q _ st (by omega) (fun i hi => hs i (by omega)),
    fill_step f src _ _ (hs q (by omega)) (inputs_fit f _ f.os _ hos (by
      show st.count + q * f.os + f.os ≤ _; omega))]
  dsimp only
  rw [if_pos (by show decide (f.K3 ≤ st.count + q * f.os + f.os) = true; simp; omega), ← reads_right src hos]
  rfl

/-- A round that does not fit. -/
theorem fill_over (f : Est N P M L) (src : ℕ → Res (Fin M → ℝ)) (hos : 0 < f.os) (q fuel : ℕ) (st : State N P M L)
    (hf : q < fuel) (hc : st.count + q * f.os < f.K3) (hc' : f.K3 < st.count + (q + 1) * f.os)
    (hs : ∀ i ≤ q, Soft src (st.calls + i)) :
    ∃ cs, f.fill src fuel st = (.error .exception, { reads src f.os (q + 1) st with cs := cs, count := f.K3 }) := by
  obtain ⟨fuel, rfl⟩ : ∃ n, fuel = q + (n + 1) := ⟨fuel - q - 1, by omega⟩
  rw [Nat.succ_mul] at hc'
  rw [fill_more f src hos q _ st (by omega) (fun i hi => hs i (by omega))]
  obtain ⟨cs, h⟩ := inputs_over f (smp src (reads src f.os q st).calls) f.os (read src (reads src f.os q st))
    (by show st.count + q * f.os ≤ _; omega) (by show _ < st.count + q * f.os + f.os; omega)
  refine ⟨cs, ?_⟩
  rw [fill_step f src _ _ (hs q le_rfl) h, ← reads_right src hos]

/-- An exception other than `RuntimeError`. -/
theorem fill_hard (f : Est N P M L) (src : ℕ → Res (Fin M → ℝ)) (hos : 0 < f.os) (q fuel : ℕ) (st : State N P M L)
    (hf : q < fuel) (hc : st.count + q * f.os < f.K3) (hs : ∀ i < q, Soft src (st.calls + i)) (e : Exc)
    (he : e ≠ .runtimeError) (h : src (st.calls + q) = .error e) :
    f.fill src fuel st = (.error e, { reads src f.os q st with calls := st.calls + q + 1 }) := by
  obtain ⟨fuel, rfl⟩ : ∃ n, fuel = q + (n + 1) := ⟨fuel - q - 1, by omega⟩
  rw [fill_more f src hos q _ st hc hs, Est.fill]
  have h' : src (reads src f.os q st).calls = .error e := h
  rw [h']
  cases e
  case runtimeError => exact absurd rfl he
  all_goals rfl

end Cbadc.Nuv
