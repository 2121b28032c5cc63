import Mathlib.Tactic.Linarith
import Mathlib.Tactic.NormNum
import Mathlib.Tactic.FieldSimp
import Mathlib.Tactic.Ring
import Mathlib.Data.Rat.Floor
import Mathlib.Data.List.Induction
import Mathlib.Tactic.FinCases
import Mathlib.LinearAlgebra.Matrix.Notation
import Verif.Model.DigitalControl
import Verif.Spec.DigitalControl

/-! # C11-C15, C17-C19: digital controls -/

namespace Cbadc.Control
open Spec

variable {K : Type*} [Field K] [LinearOrder K] {M R : ℕ}

/-! ### helper lemmas -/

theorem run_append (dc : DC K M) (st : State K M) (a b : List (Op K M)) :
    run dc st (a ++ b) = run dc (run dc st a) b := List.foldl_append ..

theorem run_snoc (dc : DC K M) (st : State K M) (a : List (Op K M)) (op : Op K M) :
    run dc st (a ++ [op]) = step dc (run dc st a) op := by rw [run_append]; rfl

theorem matched_snoc (t0 tol : K) (m : Fin M) (ops : List (Op K M)) (op : Op K M) :
    matched t0 tol m (ops ++ [op]) =
      match op with
      | .update t y => if |t - t0| ≤ tol then matched t0 tol m ops ++ [y m] else matched t0 tol m ops
      | .reset => [] := by
  simp only [matched, List.foldl_append, List.foldl_cons, List.foldl_nil]
  cases op <;> rfl

theorem bit_snoc (o v : K) (l : List K) : bit o (l ++ [v]) = if o ≤ v then 1 else 0 := by
  simp [bit]

theorem decision_snoc (o v : K) (l : List K) : decision o (l ++ [v]) = if o ≤ v then 1 else -1 := by
  simp [decision]

omit [LinearOrder K] in
theorem two_ite_sub (p : Prop) [Decidable p] :
    (2 * (if p then 1 else 0) - 1 : K) = if p then 1 else -1 := by
  split_ifs <;> ring

omit [Field K] [LinearOrder K] in
theorem noReset_snoc {ops : List (Op K M)} {op : Op K M} (h : NoReset (ops ++ [op])) :
    NoReset ops ∧ ∃ t y, op = Op.update t y :=
  ⟨fun o ho => h o (by simp [ho]), h op (by simp)⟩

theorem dec_spec (dc : DC K M) (ops : List (Op K M)) (m : Fin M) :
    (run dc State.init ops).s m = bit (dc.offsets m) (matched (dc.ir m).t0 (tol dc m) m ops) ∧
    (run dc State.init ops).cur m = decision (dc.offsets m) (matched (dc.ir m).t0 (tol dc m) m ops) := by
  induction ops using List.reverseRecOn with
  | nil => exact ⟨rfl, rfl⟩
  | append_singleton ops op ih =>
    rw [run_snoc, matched_snoc]
    generalize run dc State.init ops = st at ih ⊢
    cases op with
    | reset => exact ⟨rfl, rfl⟩
    | update t y =>
      simp only [step, update]
      by_cases h : |t - (dc.ir m).t0| ≤ tol dc m
      · rw [if_pos h]
        have h' : allclose t (dc.ir m).t0 dc.tt2 := h
        rw [if_pos h', if_pos h', bit_snoc, decision_snoc, two_ite_sub]
        exact ⟨rfl, rfl⟩
      · rw [if_neg h]
        have h' : ¬ allclose t (dc.ir m).t0 dc.tt2 := h
        rw [if_neg h', if_neg h']
        exact ih

theorem old_spec (dc : DC K M) (ops : List (Op K M)) (m : Fin M)
    (h : NoReset ops ∨ matched (dc.ir m).t0 (tol dc m) m ops ≠ []) :
    (run dc State.init ops).old m =
      decision (dc.offsets m) (matched (dc.ir m).t0 (tol dc m) m ops).dropLast := by
  induction ops using List.reverseRecOn with
  | nil => rfl
  | append_singleton ops op ih =>
    rw [run_snoc]
    rw [matched_snoc] at h ⊢
    have hd := dec_spec dc ops m
    generalize run dc State.init ops = st at ih hd ⊢
    cases op with
    | reset =>
      rcases h with h | h
      · obtain ⟨_, t, y, e⟩ := noReset_snoc h
        cases e
      · exact absurd rfl h
    | update t y =>
      simp only [step, update]
      by_cases hm : |t - (dc.ir m).t0| ≤ tol dc m
      · rw [if_pos hm]
        have h' : allclose t (dc.ir m).t0 dc.tt2 := hm
        rw [if_pos h', List.dropLast_concat]
        exact hd.2
      · simp only [if_neg hm] at h ⊢
        have h' : ¬ allclose t (dc.ir m).t0 dc.tt2 := hm
        rw [if_neg h']
        exact ih (h.imp (fun h => (noReset_snoc h).1) id)

/-! ### C11 -/

/-- **C11** after any history (of updates and resets) the control signal of control `m` is the comparison made
at the last update matching its phase since the last reset, 0 if there was none. -/
theorem C11_last_matching (dc : DC K M) (ops : List (Op K M)) (m : Fin M) :
    signal (run dc State.init ops) m =
      bit (dc.offsets m) (matched (dc.ir m).t0 (tol dc m) m ops) := (dec_spec dc ops m).1

/-- **C11** the control signal is a 0/1 vector -/
theorem C11_binary (dc : DC K M) (ops : List (Op K M)) (m : Fin M) :
    signal (run dc State.init ops) m = 0 ∨ signal (run dc State.init ops) m = 1 := by
  rw [C11_last_matching]
  unfold bit
  split
  · exact Or.inl rfl
  · split_ifs
    · exact Or.inr rfl
    · exact Or.inl rfl

/-- **C11** an update changes only the controls whose phase matches: in every state, the signal and both
decisions of the others are kept, whatever the observation. -/
theorem C11_others_kept (dc : DC K M) (st : State K M) (t : K) (y : Fin M → K) (m : Fin M)
    (h : ¬ |t - (dc.ir m).t0| ≤ tol dc m) :
    signal (update dc st t y) m = signal st m ∧
      ∀ t', contribution dc (update dc st t y) t' m = contribution dc st t' m := by
  unfold tol at h
  have hs : (update dc st t y).s m = st.s m := if_neg h
  have hc : (update dc st t y).cur m = st.cur m := if_neg h
  have ho : (update dc st t y).old m = st.old m := if_neg h
  refine ⟨hs, fun t' => ?_⟩
  unfold contribution
  simp only [hc, ho]

/-! ### C12 -/

/-- **C12** the contribution of control `m` is the impulse response (continued from the previous period before
the phase) times the decision before the latest matching update for `t < t_delay`, times the latest decision
from then on.  Histories with resets are covered once control `m` has been updated again. -/
theorem C12_contribution (dc : DC K M) (ops : List (Op K M)) (m : Fin M) (t : K)
    (h : NoReset ops ∨ matched (dc.ir m).t0 (tol dc m) m ops ≠ []) :
    contribution dc (run dc State.init ops) t m =
      (if t < (dc.ir m).t0 then (dc.ir m).f (t + dc.T) else (dc.ir m).f t) *
        (if t < dc.tDelay
          then decision (dc.offsets m) (matched (dc.ir m).t0 (tol dc m) m ops).dropLast
          else decision (dc.offsets m) (matched (dc.ir m).t0 (tol dc m) m ops)) := by
  unfold contribution
  rw [old_spec dc ops m h, (dec_spec dc ops m).2]

/-- **C12** with zero delay only the latest decision is ever applied, after any history including resets -/
theorem C12_no_delay (dc : DC K M) (ops : List (Op K M)) (m : Fin M) (t : K) (hd : dc.tDelay = 0)
    (ht : 0 ≤ t) :
    contribution dc (run dc State.init ops) t m =
      (if t < (dc.ir m).t0 then (dc.ir m).f (t + dc.T) else (dc.ir m).f t) *
        decision (dc.offsets m) (matched (dc.ir m).t0 (tol dc m) m ops) := by
  unfold contribution
  rw [hd, if_neg (not_lt.mpr ht), (dec_spec dc ops m).2]

/-- **C12** the decision applied and the control signal tell the same: decision = 2 s - 1 from the first
matching update on -/
theorem C12_decision_signal (dc : DC K M) (ops : List (Op K M)) (m : Fin M)
    (h : matched (dc.ir m).t0 (tol dc m) m ops ≠ []) :
    decision (dc.offsets m) (matched (dc.ir m).t0 (tol dc m) m ops) =
      2 * signal (run dc State.init ops) m - 1 := by
  rw [C11_last_matching]
  obtain ⟨l, v, e⟩ := List.eq_nil_or_concat' _ |>.resolve_left h
  rw [e, bit_snoc, decision_snoc, two_ite_sub]

/-! A two-control example: phases 0 and 1/2, period 1, delay 1/4. -/

/-- example control used in the non-vacuity checks -/
def exDC : DC ℚ 2 := ⟨1, 1/100, 1/4, ![stepResponse 0, stepResponse (1/2)], ![0, 1/10]⟩

/-- example history used in the non-vacuity checks -/
def exOps : List (Op ℚ 2) :=
  [.update 0 ![1, 1], .update (1/2) ![1, 1/20], .update 0 ![-1, 1]]

example : DC.new (1 : ℚ) (1/100) 2 (some [stepResponse 0, stepResponse (1/2)]) (1/4) (some [0, 1/10])
    = .ok exDC := by
  unfold DC.new initIR initOffsets
  norm_num [badPhases, anyDecrease, stepResponse, exDC]
  constructor <;> funext m <;> fin_cases m <;> rfl

example : NoReset exOps := by
  intro op hop
  simp only [exOps, List.mem_cons, List.not_mem_nil, or_false] at hop
  rcases hop with h | h | h <;> exact ⟨_, _, h⟩

example : matched (exDC.ir 0).t0 (tol exDC 0) 0 exOps = [1, -1] := by
  norm_num [matched, exOps, exDC, tol, stepResponse]

example : matched (exDC.ir 1).t0 (tol exDC 1) 1 exOps = [1/20] := by
  norm_num [matched, exOps, exDC, tol, stepResponse, abs_of_neg]

/-- before the delay the first control still applies +1, afterwards -1 -/
example : contribution exDC (run exDC State.init exOps) (1/8) 0 = 1 ∧
    contribution exDC (run exDC State.init exOps) (1/4) 0 = -1 := by
  have e : matched (exDC.ir 0).t0 (tol exDC 0) 0 exOps = [1, -1] := by
    norm_num [matched, exOps, exDC, tol, stepResponse]
  constructor
  · rw [C12_contribution _ _ _ _ (Or.inr (by rw [e]; simp)), e]
    norm_num [exDC, stepResponse, decision]
  · rw [C12_contribution _ _ _ _ (Or.inr (by rw [e]; simp)), e]
    norm_num [exDC, stepResponse, decision]

/-! ### C13 -/

theorem hrun_snoc (dc : DC K M) (h : HState K M) (a : List (Op K M)) (op : Op K M) :
    hrun dc h (a ++ [op]) = hstep dc (hrun dc h a) op := by simp [hrun, List.foldl_append]

/-- the object with array identities refines the plain one -/
theorem hrun_rest (dc : DC K M) (ops : List (Op K M)) :
    (hrun dc HState.init ops).rest = run dc State.init ops ∧
    (hrun dc HState.init ops).heap (hrun dc HState.init ops).addr = (run dc State.init ops).s := by
  induction ops using List.reverseRecOn with
  | nil => exact ⟨rfl, rfl⟩
  | append_singleton ops op ih =>
    rw [hrun_snoc, run_snoc, ← ih.1]
    cases op <;> exact ⟨rfl, by simp [hstep, step]⟩

/-- **C13 is false**: a control vector obtained from `control_signal()` changes when the control is updated
again. -/
theorem C13_false :
    ∃ (dc : DC ℚ 1) (before later : List (Op ℚ 1)),
      DC.new (1 : ℚ) 0 1 none 0 none = .ok dc ∧
      (let h := hrun dc HState.init before
       deref (hrun dc h later) (handOut h) ≠ deref h (handOut h)) := by
  refine ⟨⟨1, 0, 0, fun _ => stepResponse 0, fun _ => 0⟩, [.update 0 ![1]], [.update 0 ![-1]], ?_, ?_⟩
  · simp [DC.new, initIR, initOffsets]
  · dsimp only
    intro h
    have := congrFun h 0
    norm_num [hrun, hstep, handOut, deref, HState.init, update, allclose, stepResponse, State.init] at this

/-- the array bound to `_s` after more calls, when none of them is a reset -/
theorem addr_noReset (dc : DC K M) (h : HState K M) (ops : List (Op K M)) (hn : NoReset ops) :
    (hrun dc h ops).addr = h.addr := by
  induction ops using List.reverseRecOn with
  | nil => rfl
  | append_singleton ops op ih =>
    obtain ⟨h1, t, y, e⟩ := noReset_snoc hn
    rw [hrun_snoc, ← ih h1, e]
    rfl

/-- **C13 (what holds instead, 1)** as long as the control is not reset, every vector ever handed out shows the
*current* control signal -/
theorem C13_view_partial (dc : DC K M) (before later : List (Op K M)) (hn : NoReset later) :
    deref (hrun dc HState.init (before ++ later)) (handOut (hrun dc HState.init before)) =
      signal (run dc State.init (before ++ later)) := by
  have h1 : (hrun dc HState.init (before ++ later)).addr = (hrun dc HState.init before).addr := by
    rw [hrun, List.foldl_append]
    exact addr_noReset dc _ later hn
  unfold deref handOut
  rw [← h1]
  exact (hrun_rest dc (before ++ later)).2

theorem addr_mono (dc : DC K M) (h : HState K M) (ops : List (Op K M)) : h.addr ≤ (hrun dc h ops).addr := by
  induction ops using List.reverseRecOn with
  | nil => exact le_refl _
  | append_singleton ops op ih =>
    rw [hrun_snoc]
    cases op
    · exact ih
    · exact ih.trans (Nat.le_succ _)

/-- **C13 (what holds instead, 2)** vectors handed out before a reset are final: nothing later alters them -/
theorem C13_after_reset_partial (dc : DC K M) (before later : List (Op K M)) :
    deref (hrun dc HState.init (before ++ .reset :: later)) (handOut (hrun dc HState.init before)) =
      signal (run dc State.init before) := by
  have key : ∀ later : List (Op K M),
      (hrun dc (hstep dc (hrun dc HState.init before) .reset) later).heap (hrun dc HState.init before).addr =
        (run dc State.init before).s := by
    intro later
    induction later using List.reverseRecOn with
    | nil =>
      rw [← (hrun_rest dc before).2]
      simp [hrun, hstep]
    | append_singleton ops op ih =>
      have hm := addr_mono dc (hstep dc (hrun dc HState.init before) .reset) ops
      have ha : (hstep dc (hrun dc HState.init before) .reset).addr
          = (hrun dc HState.init before).addr + 1 := rfl
      rw [hrun_snoc]
      cases op with
      | update t y =>
        simp only [hstep] at ih hm ⊢
        rw [Function.update_of_ne (by omega)]
        exact ih
      | reset =>
        simp only [hstep] at ih hm ⊢
        rw [Function.update_of_ne (by omega)]
        exact ih
  unfold deref handOut signal
  rw [← key later, hrun, List.foldl_append]
  rfl

example : NoReset ([.update 0 ![-1, 0]] : List (Op ℚ 2)) := by
  intro op hop
  simp only [List.mem_singleton] at hop
  exact ⟨_, _, hop⟩

/-- a collected vector showing a later decision -/
example : deref (hrun exDC HState.init (exOps ++ [.update 0 ![1, 0]])) (handOut (hrun exDC HState.init exOps)) 0
    = 1 ∧ signal (run exDC State.init exOps) 0 = 0 := by
  refine ⟨(congrFun (C13_view_partial exDC exOps [.update 0 ![1, 0]] ?_) 0).trans ?_, ?_⟩
  · intro op hop
    simp only [List.mem_singleton] at hop
    exact ⟨_, _, hop⟩
  · rw [C11_last_matching]
    norm_num [matched, exOps, exDC, tol, stepResponse, bit]
  · rw [C11_last_matching]
    norm_num [matched, exOps, exDC, tol, stepResponse, bit]

/-! ### C14 -/

/-- **C14 is false**: with an excess delay the previous decision survives `reset()`. -/
theorem C14_false :
    ∃ (dc : DC ℚ 1) (before : List (Op ℚ 1)) (t : ℚ),
      DC.new (1 : ℚ) 0 1 none (1/4) none = .ok dc ∧ 0 ≤ t ∧ t ≤ dc.T ∧
      contribution dc (reset (run dc State.init before)) t ≠ contribution dc State.init t := by
  refine ⟨⟨1, 0, 1/4, fun _ => stepResponse 0, fun _ => 0⟩, [.update 0 ![1], .update 0 ![1]], 0, ?_,
    le_refl _, by norm_num, ?_⟩
  · norm_num [DC.new, initIR, initOffsets]
  · intro h
    have := congrFun h 0
    norm_num [contribution, run, step, update, allclose, stepResponse, State.init, reset] at this

/-- **C14 is false for multi-level controls**: after `reset()` the control stores its (fractional) quantiser
outputs in an integer array; a two-level control then decides differently from a new one. -/
theorem C14_multilevel_false :
    ∃ (ml : ML ℚ 1) (y : Fin 1 → ℚ),
      ML.new (1 : ℚ) 0 1 [2] none [] = .ok ml ∧
      (mlUpdate ml (mlReset MLState.init) 0 y).st.s ≠ (mlUpdate ml MLState.init 0 y).st.s := by
  refine ⟨⟨⟨1, 0, 0, fun _ => stepResponse 0, fun _ => 0⟩, fun _ => 2⟩, fun _ => 0, ?_, ?_⟩
  · norm_num [ML.new, DC.new, initIR, initOffsets]
  · intro h
    have := congrFun h 0
    norm_num [mlUpdate, mlReset, MLState.init, allclose, stepResponse, quantize, quantizeLoop, ML.level,
      ML.reference, linspace, store, pyInt] at this

/-- two states that differ in the old decisions only behave alike from `t_delay` on -/
theorem agree_run (dc : DC K M) (a b : State K M) (hs : a.s = b.s) (hc : a.cur = b.cur) (ops : List (Op K M)) :
    (run dc a ops).s = (run dc b ops).s ∧ (run dc a ops).cur = (run dc b ops).cur := by
  induction ops using List.reverseRecOn with
  | nil => exact ⟨hs, hc⟩
  | append_singleton ops op ih =>
    rw [run_snoc, run_snoc]
    generalize run dc a ops = a' at *
    generalize run dc b ops = b' at *
    obtain ⟨h1, h2⟩ := ih
    cases op with
    | reset => exact ⟨rfl, rfl⟩
    | update t y =>
      constructor <;> funext m <;> simp only [step, update, h1, h2]

/-- **C14 (part that holds)** after `reset()`, for every earlier and every later history, the control signal is
that of a new control, and so is the contribution from `t_delay` on (hence everywhere if `t_delay = 0`). -/
theorem C14_reset_partial (dc : DC K M) (before later : List (Op K M)) :
    signal (run dc (reset (run dc State.init before)) later) = signal (run dc State.init later) ∧
    ∀ t, dc.tDelay ≤ t →
      contribution dc (run dc (reset (run dc State.init before)) later) t =
        contribution dc (run dc State.init later) t := by
  obtain ⟨h1, h2⟩ := agree_run dc (reset (run dc State.init before)) State.init rfl rfl later
  refine ⟨h1, fun t ht => ?_⟩
  funext m
  unfold contribution
  rw [if_neg (not_lt.mpr ht), if_neg (not_lt.mpr ht), h2]

/-- **C14 (part that holds)** once every control has been updated after the reset, the contribution is that of
a new control at every time -/
theorem C14_after_update_partial (dc : DC K M) (before later : List (Op K M)) (t : K) (m : Fin M)
    (hm : matched (dc.ir m).t0 (tol dc m) m later ≠ []) :
    contribution dc (run dc (reset (run dc State.init before)) later) t m =
      contribution dc (run dc State.init later) t m := by
  have e : matched (dc.ir m).t0 (tol dc m) m (before ++ .reset :: later)
      = matched (dc.ir m).t0 (tol dc m) m later := by
    simp only [matched, List.foldl_append, List.foldl_cons]
  have e2 : run dc (reset (run dc State.init before)) later = run dc State.init (before ++ .reset :: later) := by
    rw [run_append]; rfl
  rw [e2, C12_contribution dc _ m t (Or.inr (by rw [e]; exact hm)),
    C12_contribution dc later m t (Or.inr hm), e]

example : matched (exDC.ir 1).t0 (tol exDC 1) 1 exOps ≠ [] := by
  norm_num [matched, exOps, exDC, tol, stepResponse, abs_of_neg]

/-! ### C15 -/

omit [Field K] in
theorem anyDecrease_false (l : List K) : anyDecrease l = false ↔ l.Pairwise (· ≤ ·) := by
  rw [← List.isChain_iff_pairwise]
  induction l with
  | nil => simp [anyDecrease]
  | cons a r ih =>
    cases r with
    | nil => simp [anyDecrease]
    | cons b r =>
      simp only [anyDecrease, Bool.or_eq_false_iff, decide_eq_false_iff_not, not_lt, ih,
        List.isChain_cons_cons]

theorem badPhases_false (T : K) (l : List K) :
    badPhases T l = false ↔ (∀ t ∈ l, 0 ≤ t ∧ t ≤ T) ∧ l.Pairwise (· ≤ ·) := by
  simp only [badPhases, Bool.or_eq_false_iff, anyDecrease_false, List.any_eq_false, decide_eq_true_eq, not_lt]
  exact ⟨fun h => ⟨fun t ht => ⟨h.1.1 t ht, h.1.2 t ht⟩, h.2⟩,
    fun h => ⟨⟨fun t ht => (h.1 t ht).1, fun t ht => (h.1 t ht).2⟩, h.2⟩⟩

/-- valid constructor arguments (specification) -/
def ValidArgs (T : K) (M : ℕ) (ir : Option (List (IR K))) (tDelay : K) (offsets : Option (List K)) : Prop :=
  0 ≤ tDelay ∧
  (∀ l, ir = some l → l.length = M ∧ (∀ x ∈ l, 0 ≤ x.t0 ∧ x.t0 ≤ T) ∧ (l.map IR.t0).Pairwise (· ≤ ·)) ∧
  (∀ o, offsets = some o → o.length = M)

theorem initIR_ok (T : K) (M : ℕ) (ir : Option (List (IR K))) :
    (∀ l, ir = some l → l.length = M ∧ (∀ x ∈ l, 0 ≤ x.t0 ∧ x.t0 ≤ T) ∧ (l.map IR.t0).Pairwise (· ≤ ·)) →
    ∃ f, initIR T M ir = .ok f ∧ (ir = none → ∀ m, f m = stepResponse 0) ∧
      (∀ l, ir = some l → ∀ m : Fin M, l[m.val]? = some (f m)) := by
  intro h
  cases ir with
  | none => exact ⟨_, rfl, fun _ _ => rfl, fun _ h => by cases h⟩
  | some l =>
    obtain ⟨h1, h2, h3⟩ := h l rfl
    have hb : badPhases T (l.map IR.t0) = false := by
      rw [badPhases_false]
      refine ⟨?_, h3⟩
      intro t ht
      obtain ⟨x, hx, rfl⟩ := List.mem_map.mp ht
      exact h2 x hx
    refine ⟨fun m => l.get (m.cast h1.symm), ?_, by simp, ?_⟩
    · simp [initIR, h1, hb]
    · intro l' e m
      simp only [Option.some.injEq] at e
      subst e
      simp [h1]

theorem initIR_error (T : K) (M : ℕ) (ir : Option (List (IR K)))
    (h : ¬ ∀ l, ir = some l → l.length = M ∧ (∀ x ∈ l, 0 ≤ x.t0 ∧ x.t0 ≤ T) ∧
      (l.map IR.t0).Pairwise (· ≤ ·)) : initIR T M ir = .error .exception := by
  cases ir with
  | none => exact absurd (fun l h => by cases h) h
  | some l =>
    by_cases h1 : l.length = M
    · have hb : badPhases T (l.map IR.t0) = true := by
        by_contra hb
        rw [Bool.not_eq_true, badPhases_false] at hb
        refine h fun l' e => ?_
        simp only [Option.some.injEq] at e
        subst e
        exact ⟨h1, fun x hx => hb.1 _ (List.mem_map_of_mem hx), hb.2⟩
      simp [initIR, h1, hb]
    · simp [initIR, h1]

/-- **C15** valid arguments are accepted, and the object uses exactly the given phases, delay and offsets
(steps at 0 / zeros when omitted) -/
theorem C15_accepts (T tt2 : K) (M : ℕ) (ir : Option (List (IR K))) (tDelay : K) (offsets : Option (List K))
    (h : ValidArgs T M ir tDelay offsets) :
    ∃ dc, DC.new T tt2 M ir tDelay offsets = .ok dc ∧ dc.T = T ∧ dc.tt2 = tt2 ∧ dc.tDelay = tDelay ∧
      (ir = none → ∀ m, dc.ir m = stepResponse 0) ∧
      (∀ l, ir = some l → ∀ m : Fin M, l[m.val]? = some (dc.ir m)) ∧
      (offsets = none → ∀ m, dc.offsets m = 0) ∧
      (∀ o, offsets = some o → ∀ m : Fin M, o[m.val]? = some (dc.offsets m)) := by
  obtain ⟨h1, h2, h3⟩ := h
  obtain ⟨f, hf, hf1, hf2⟩ := initIR_ok T M ir h2
  cases offsets with
  | none =>
    refine ⟨⟨T, tt2, tDelay, f, fun _ => 0⟩, ?_, rfl, rfl, rfl, hf1, hf2, fun _ _ => rfl, by simp⟩
    simp [DC.new, initOffsets, hf, not_lt.mpr h1]
  | some o =>
    have ho := h3 o rfl
    refine ⟨⟨T, tt2, tDelay, f, fun m => o.get (m.cast ho.symm)⟩, ?_, rfl, rfl, rfl, hf1, hf2, by simp, ?_⟩
    · simp [DC.new, initOffsets, hf, not_lt.mpr h1, ho]
    · intro o' e m
      simp only [Option.some.injEq] at e
      subst e
      simp [ho]

/-- **C15** everything else raises -/
theorem C15_rejects (T tt2 : K) (M : ℕ) (ir : Option (List (IR K))) (tDelay : K) (offsets : Option (List K))
    (h : ¬ ValidArgs T M ir tDelay offsets) :
    DC.new T tt2 M ir tDelay offsets = .error .exception := by
  unfold DC.new
  by_cases h1 : tDelay < 0
  · rw [if_pos h1]
  · rw [if_neg h1]
    by_cases h2 : ∀ l, ir = some l → l.length = M ∧ (∀ x ∈ l, 0 ≤ x.t0 ∧ x.t0 ≤ T) ∧
        (l.map IR.t0).Pairwise (· ≤ ·)
    · obtain ⟨f, hf, -, -⟩ := initIR_ok T M ir h2
      rw [hf]
      have h3 : ¬ ∀ o, offsets = some o → o.length = M := fun h3 => h ⟨not_lt.mp h1, h2, h3⟩
      cases offsets with
      | none => exact absurd (fun o h => by cases h) h3
      | some o =>
        have : o.length ≠ M := fun e => h3 fun o' e' => by
          simp only [Option.some.injEq] at e'; subst e'; exact e
        simp [initOffsets, this]
    · rw [initIR_error T M ir h2]

/-- **C15** `reset` accepts only time 0 -/
theorem C15_reset (st : State K M) (t0 : K) :
    (t0 = 0 → resetAt st t0 = .ok (reset st)) ∧ (t0 ≠ 0 → resetAt st t0 = .error .deprecationWarning) := by
  constructor <;> intro h <;> simp [resetAt, h]

example : ValidArgs (1 : ℚ) 2 (some [stepResponse 0, stepResponse (1/2)]) (1/4) (some [0, 1/10]) := by
  refine ⟨by norm_num, ?_, ?_⟩
  · intro l h
    simp only [Option.some.injEq] at h
    subst h
    norm_num [stepResponse]
  · intro o h
    simp only [Option.some.injEq] at h
    subst h
    rfl

example : ¬ ValidArgs (1 : ℚ) 2 (some [stepResponse (1/2), stepResponse 0]) 0 none := by
  rintro ⟨-, h, -⟩
  have := (h _ rfl).2.2
  norm_num [stepResponse] at this

/-! ### C17 -/

section
variable [IsStrictOrderedRing K]

/-- number of thresholds `-1 + (2k+1)/n`, `k < n`, not above `x` (specification) -/
def count (n : ℕ) (x : K) : ℕ := ((List.range n).filter fun k : ℕ => (-1 + (2 * k + 1) / n : K) ≤ x).length

theorem level_eq (n k : ℕ) (hn : 1 ≤ n) (hk : k < n) : (ML.level n k : K) = -1 + (2 * k + 1) / n := by
  unfold ML.level linspace
  by_cases h : n = 1
  · subst h
    have : k = 0 := by omega
    subst this
    norm_num
  · rw [if_neg h]
    have h1 : ((n - 1 : ℕ) : K) = n - 1 := by rw [Nat.cast_sub hn]; simp
    have h2 : (n : K) - 1 ≠ 0 := by
      rw [← h1]; exact_mod_cast (by omega : n - 1 ≠ 0)
    have h3 : (n : K) ≠ 0 := by exact_mod_cast (by omega : n ≠ 0)
    rw [h1]
    field_simp
    ring

theorem reference_eq (n k : ℕ) (hn : 1 ≤ n) : (ML.reference n k : K) = k / n := by
  unfold ML.reference linspace
  rw [if_neg (by omega)]
  have h3 : (n : K) ≠ 0 := by exact_mod_cast (by omega : n ≠ 0)
  simp only [Nat.add_sub_cancel]
  field_simp
  ring

theorem level_mono (n : ℕ) {j k : ℕ} (h : j ≤ k) : (-1 + (2 * j + 1) / n : K) ≤ -1 + (2 * k + 1) / n := by
  have : (j : K) ≤ k := by exact_mod_cast h
  have hn : (0 : K) ≤ n := Nat.cast_nonneg n
  have := div_le_div_of_nonneg_right (by linarith : (2 * j + 1 : K) ≤ 2 * k + 1) hn
  linarith

/-- characterisation of `count` as the first threshold above `x` -/
theorem count_eq (n : ℕ) (x : K) (c : ℕ) (hc : c ≤ n)
    (h1 : ∀ k < c, (-1 + (2 * k + 1) / n : K) ≤ x)
    (h2 : c < n → x < -1 + (2 * c + 1) / n) : count n x = c := by
  have key : ∀ m ≤ n, ((List.range m).filter fun k : ℕ => (-1 + (2 * k + 1) / n : K) ≤ x).length
      = min m c := by
    intro m
    induction m with
    | zero => intro; simp
    | succ m ih =>
      intro hm
      rw [List.range_succ, List.filter_append, List.length_append, ih (by omega)]
      by_cases h : m < c
      · have := h1 m h
        simp only [List.filter_cons, this, decide_true, if_true, List.filter_nil, List.length_singleton]
        omega
      · have : ¬ (-1 + (2 * m + 1) / n : K) ≤ x := by
          have := h2 (by omega)
          have := level_mono (K := K) n (by omega : c ≤ m)
          intro h'
          linarith
        simp only [List.filter_cons, this, decide_false, List.filter_nil]
        simp only [Bool.false_eq_true, if_false, List.length_nil]
        omega
  have := key n (le_refl n)
  unfold count
  rw [this]
  omega

theorem quantizeLoop_eq (n : ℕ) (hn : 1 ≤ n) (x : K) : ∀ (fuel level : ℕ), level + fuel = n → 1 ≤ fuel →
    (∀ k < level, (-1 + (2 * k + 1) / n : K) ≤ x) →
    quantizeLoop n x fuel level = some ((count n x : K) / n) := by
  intro fuel
  induction fuel with
  | zero => intro level _ h; omega
  | succ fuel ih =>
    intro level hl _ hk
    rw [quantizeLoop, level_eq n level hn (by omega)]
    by_cases h : (-1 + (2 * level + 1) / n : K) ≤ x
    · rw [if_neg (not_not.mpr h)]
      have hk' : ∀ k < level + 1, (-1 + (2 * k + 1) / n : K) ≤ x := by
        intro k hk''
        rcases Nat.lt_succ_iff_lt_or_eq.mp hk'' with h' | h'
        · exact hk k h'
        · subst h'; exact h
      by_cases h2 : level = n - 1
      · rw [if_pos h2, reference_eq n n hn, count_eq n x n (le_refl n) (by
          intro k hk''; exact hk' k (by omega)) (by omega)]
      · rw [if_neg h2]
        exact ih (level + 1) (by omega) (by omega) hk'
    · rw [if_pos h, reference_eq n level hn, count_eq n x level (by omega) hk
        (fun _ => not_le.mp h)]

/-- **C17** the quantiser returns one of its `n+1` references, namely the fraction of its `n` evenly spaced
thresholds that the input reaches -/
theorem C17_value (n : ℕ) (hn : 1 ≤ n) (x : K) : quantize n x = some ((count n x : K) / n) :=
  quantizeLoop_eq n hn x n 0 (by omega) hn (by simp)

omit [IsStrictOrderedRing K] in
theorem count_le (n : ℕ) (x : K) : count n x ≤ n := by
  unfold count
  exact (List.length_filter_le _ _).trans (by simp)

/-- **C17** the result is `j/n` for some `0 ≤ j ≤ n` -/
theorem C17_range (n : ℕ) (hn : 1 ≤ n) (x : K) : ∃ j ≤ n, quantize n x = some ((j : K) / n) :=
  ⟨_, count_le n x, C17_value n hn x⟩

/-- **C17** monotone -/
theorem C17_monotone (n : ℕ) (hn : 1 ≤ n) (x y : K) (h : x ≤ y) :
    ∃ a b, quantize n x = some a ∧ quantize n y = some b ∧ a ≤ b := by
  refine ⟨_, _, C17_value n hn x, C17_value n hn y, ?_⟩
  have : count n x ≤ count n y := by
    unfold count
    apply List.Sublist.length_le
    apply List.monotone_filter_right
    intro k hk
    simp only [decide_eq_true_eq] at hk ⊢
    linarith
  have h1 : (count n x : K) ≤ count n y := by exact_mod_cast this
  exact div_le_div_of_nonneg_right h1 (Nat.cast_nonneg n)

/-- the count satisfies its characterisation -/
theorem count_spec (n : ℕ) (x : K) :
    (∀ k < count n x, (-1 + (2 * k + 1) / n : K) ≤ x) ∧
      (count n x < n → x < -1 + (2 * count n x + 1) / n) := by
  by_cases h : ∃ k, k < n ∧ x < -1 + (2 * k + 1) / n
  · have hd := Nat.find_spec h
    have hm := fun k => Nat.find_min (H := h) (m := k)
    generalize Nat.find h = c at hd hm
    have e : count n x = c := by
      apply count_eq n x c hd.1.le
      · intro k hk
        by_contra hc
        exact hm k hk ⟨by omega, not_le.mp hc⟩
      · intro _; exact hd.2
    rw [e]
    refine ⟨?_, fun _ => hd.2⟩
    intro k hk
    by_contra hc
    exact hm k hk ⟨by omega, not_le.mp hc⟩
  · have h' : ∀ k < n, (-1 + (2 * k + 1) / n : K) ≤ x := by
      intro k hk
      by_contra hc
      exact h ⟨k, hk, not_le.mp hc⟩
    have e : count n x = n := count_eq n x n (le_refl n) h' (by omega)
    rw [e]
    exact ⟨h', fun h => absurd h (lt_irrefl _)⟩

/-- **C17** piecewise constant with the documented thresholds: output `j/n` exactly between threshold `j-1` and
threshold `j`; in particular it saturates at 0 below the first and at 1 from the last threshold on -/
theorem C17_thresholds (n : ℕ) (hn : 1 ≤ n) (x : K) (j : ℕ) (hj : j ≤ n) :
    quantize n x = some ((j : K) / n) ↔
      (1 ≤ j → (-1 + (2 * j - 1) / n : K) ≤ x) ∧ (j < n → x < -1 + (2 * j + 1) / n) := by
  rw [C17_value n hn x]
  have hn' : (n : K) ≠ 0 := by exact_mod_cast (by omega : n ≠ 0)
  constructor
  · intro h
    simp only [Option.some.injEq] at h
    have h' : count n x = j := by
      rw [div_left_inj' hn'] at h
      exact_mod_cast h
    obtain ⟨h1, h2⟩ := count_spec n x
    rw [h'] at h1 h2
    refine ⟨?_, h2⟩
    intro h3
    have := h1 (j - 1) (by omega)
    rw [Nat.cast_sub h3] at this
    have e : (2 * ((j : K) - (1 : ℕ)) + 1) = 2 * j - 1 := by push_cast; ring
    rw [e] at this
    exact this
  · rintro ⟨h1, h2⟩
    rw [count_eq n x j hj ?_ h2]
    intro k hk
    have h3 := h1 (by omega)
    have h4 := level_mono (K := K) n (by omega : k ≤ j - 1)
    rw [Nat.cast_sub (by omega : 1 ≤ j)] at h4
    have e : (2 * ((j : K) - (1 : ℕ)) + 1) = 2 * j - 1 := by push_cast; ring
    rw [e] at h4
    linarith

/-- **C17** the decision `2q - 1` is within half a step (`1/n`) of the input in the no-overload range -/
theorem C17_half_step (n : ℕ) (hn : 1 ≤ n) (x : K) (hx : |x| ≤ 1 + 1 / n) :
    ∃ q, quantize n x = some q ∧ |(2 * q - 1) - x| ≤ 1 / n := by
  refine ⟨_, C17_value n hn x, ?_⟩
  have hn0 : (0 : K) < n := by exact_mod_cast (by omega : 0 < n)
  obtain ⟨h1, h2⟩ := count_spec n x
  have hc := count_le n x
  rw [abs_le] at hx
  generalize count n x = c at h1 h2 hc
  have e1 : (2 * ((c : K) / n) - 1) - x = (-1 + (2 * c) / n) - x := by ring
  rw [e1, abs_le]
  have e2 : ∀ a : K, (a + 1) / n = a / n + 1 / n := fun a => add_div a 1 n
  constructor
  · rcases Nat.lt_or_ge c n with h | h
    · have := h2 h
      rw [e2] at this
      linarith
    · have : c = n := by omega
      subst this
      have : (2 * (c : K)) / c = 2 := by field_simp
      rw [this]
      linarith
  · rcases Nat.eq_zero_or_pos c with h | h
    · subst h
      simp only [Nat.cast_zero, mul_zero, zero_div]
      linarith
    · have := h1 (c - 1) (by omega)
      rw [Nat.cast_sub h] at this
      have e : (2 * ((c : K) - (1 : ℕ)) + 1) = 2 * c - 1 := by push_cast; ring
      rw [e, sub_div] at this
      linarith

/-- **C17** with one level it is the binary comparator -/
theorem C17_one_level (x : K) : quantize 1 x = some (if 0 ≤ x then 1 else 0) := by
  by_cases h : 0 ≤ x
  · rw [if_pos h, (C17_thresholds 1 (le_refl 1) x 1 (le_refl 1)).mpr ⟨fun _ => by norm_num; exact h, by simp⟩
      |>.trans (by norm_num : some (((1 : ℕ) : K) / (1 : ℕ)) = some 1)]
  · rw [if_neg h, (C17_thresholds 1 (le_refl 1) x 0 (by omega)).mpr
      ⟨by simp, fun _ => by norm_num; exact not_le.mp h⟩ |>.trans
      (by norm_num : some (((0 : ℕ) : K) / (1 : ℕ)) = some 0)]

/-- **C17** the DAC decision of an accepted multi-level control at a matching update of a control that was
never reset is `2q - 1` -/
theorem C17_decision [FloorRing K] (T tt2 : K) (levels : List ℕ) (ir : Option (List (IR K)))
    (offs : List K) (ml : ML K M) (hml : ML.new T tt2 M levels ir offs = .ok ml) (st : MLState K M)
    (hst : st.intS = false) (t : K) (y : Fin M → K) (m : Fin M)
    (ht : |t - (ml.dc.ir m).t0| ≤ tol ml.dc m) :
    ∃ q, quantize (ml.n m) (y m) = some q ∧ (mlUpdate ml st t y).st.s m = q ∧
      (mlUpdate ml st t y).st.cur m = 2 * q - 1 := by
  unfold ML.new at hml
  split_ifs at hml with h1 h2 h3
  have hoff : ml.dc.offsets m = 0 ∧ 1 ≤ ml.n m := by
    unfold DC.new initOffsets at hml
    split at hml
    · cases hml
    · rename_i dc hdc
      simp only [Except.ok.injEq] at hml
      subst hml
      constructor
      · split_ifs at hdc
        split at hdc
        · cases hdc
        · simp only [Except.ok.injEq] at hdc
          subst hdc
          rfl
      · simp only [List.any_eq_true, beq_iff_eq, exists_eq_right] at h3
        rcases Nat.eq_zero_or_pos (levels.get (m.cast h2.symm)) with h | h
        · exact absurd (h ▸ List.get_mem _ _) h3
        · exact h
  refine ⟨_, C17_value _ hoff.2 _, ?_, ?_⟩
  · have : allclose t (ml.dc.ir m).t0 ml.dc.tt2 := ht
    simp only [mlUpdate, if_pos this, hst, store, C17_value _ hoff.2, Option.getD_some]
    rfl
  · have : allclose t (ml.dc.ir m).t0 ml.dc.tt2 := ht
    simp only [mlUpdate, if_pos this, hst, store, C17_value _ hoff.2, Option.getD_some, hoff.1, add_zero]
    rfl

end

example : quantize 4 (3/10 : ℚ) = some (3/4) :=
  ((C17_thresholds 4 (by norm_num) (3/10 : ℚ) 3 (by norm_num)).mpr (by norm_num)).trans (by norm_num)

example : |(3/10 : ℚ)| ≤ 1 + 1 / (4 : ℕ) := by norm_num [abs_of_pos]

/-! ### C18 -/

/-- **C18**: whatever offsets are given, the resulting control is the one built without offsets (or
the construction fails) -/
theorem C18_offsets_ignored (T tt2 : K) (M : ℕ) (levels : List ℕ) (ir : Option (List (IR K))) (offs : List K)
    (h : offs = [] ∨ offs.length = M) :
    ML.new T tt2 M levels ir offs = ML.new T tt2 M levels ir [] := by
  unfold ML.new
  rw [if_neg (not_not.mpr h), if_neg (by simp)]

/-- **C18 (part that holds)** an offset list of the wrong length is rejected -/
theorem C18_length_partial (T tt2 : K) (M : ℕ) (levels : List ℕ) (ir : Option (List (IR K))) (offs : List K)
    (h0 : offs ≠ []) (h : offs.length ≠ M) :
    ML.new T tt2 M levels ir offs = .error .exception := by
  unfold ML.new
  rw [if_pos (by tauto)]

/-- **C18 is false**: a control accepted with offset 3/4 decides 1 on an input of 1/2, below the shifted
threshold -/
theorem C18_false :
    ∃ (ml : ML ℚ 1) (x : ℚ), ML.new (1 : ℚ) 0 1 [1] none [3/4] = .ok ml ∧ x < 3/4 ∧
      (mlUpdate ml MLState.init 0 ![x]).st.s 0 = 1 := by
  refine ⟨⟨⟨1, 0, 0, fun _ => stepResponse 0, fun _ => 0⟩, fun _ => 1⟩, 1/2, ?_, by norm_num, ?_⟩
  · norm_num [ML.new, DC.new, initIR, initOffsets]
  · norm_num [mlUpdate, MLState.init, allclose, stepResponse, store, C17_one_level]

/-! ### C19 -/

/-- one draw of the abstract draw machine -/
def drawStep (d : Dither K R M) (x : (Fin R → K) × ℕ) (e : Fin R × Bool) : (Fin R → K) × ℕ :=
  if e.2 then (Function.update x.1 e.1 (d.seq x.2 e.1), (x.2 + 1) % d.size)
  else (Function.update x.1 e.1 (1 / 2), x.2)

omit [LinearOrder K] in
theorem drawn_snoc (seq : ℕ → Fin R → K) (size : ℕ) (l : List (Fin R × Bool)) (e : Fin R × Bool) (m : Fin R) :
    drawn seq size (l ++ [e]) m =
      if e.1 = m then (if e.2 then seq (l.countP (·.2) % size) m else 1 / 2) else drawn seq size l m := by
  unfold drawn
  rw [List.reverse_append, List.reverse_singleton, List.singleton_append]
  by_cases h : e.1 = m
  · rw [if_pos h, List.dropWhile_cons_of_neg (by simp [h])]
    simp only [List.countP_reverse]
  · rw [if_neg h, List.dropWhile_cons_of_pos (by simp [h])]

omit [LinearOrder K] in
theorem drawStep_spec (d : Dither K R M) (l : List (Fin R × Bool)) :
    l.foldl (drawStep d) (fun _ => 0, 0) = (drawn d.seq d.size l, l.countP (·.2) % d.size) := by
  induction l using List.reverseRecOn with
  | nil => simp only [List.foldl_nil, List.countP_nil, Nat.zero_mod]; rfl
  | append_singleton l e ih =>
    rw [List.foldl_append, ih, List.foldl_cons, List.foldl_nil]
    unfold drawStep
    by_cases h : e.2 = true
    · rw [if_pos h]
      simp only [List.countP_append, List.countP_singleton, h, if_true, Prod.mk.injEq]
      refine ⟨?_, by rw [Nat.mod_add_mod]⟩
      funext m
      rw [drawn_snoc, h, if_pos rfl, Function.update_apply]
      by_cases hm : m = e.1
      · subst hm; simp
      · rw [if_neg hm, if_neg (fun h => hm h.symm)]
    · rw [if_neg h]
      simp only [List.countP_append, List.countP_singleton, h, Prod.mk.injEq]
      refine ⟨?_, by simp⟩
      funext m
      rw [drawn_snoc, if_neg h, Function.update_apply]
      by_cases hm : m = e.1
      · subst hm; simp
      · rw [if_neg hm, if_neg (fun h => hm h.symm)]

/-- tolerance of a random control -/
def dtol (d : Dither K R M) (m : Fin R) : K := d.inner.tt2 + 1 / 100000 * |(d.ir m).t0|

theorem ditherLoop (d : Dither K R M) (t : K) (l : List (Fin R)) (st : DState K R M) :
    let st' := l.foldl (ditherBody d t) st
    (st'.sR, st'.idx) = (((l.filter fun m => |t - (d.ir m).t0| ≤ dtol d m).map
        (fun m => (m, st.dithering))).foldl (drawStep d) (st.sR, st.idx)) ∧
      st'.dithering = st.dithering ∧ st'.inner = st.inner ∧ st'.sM = st.sM ∧ st'.curM = st.curM := by
  induction l generalizing st with
  | nil => exact ⟨rfl, rfl, rfl, rfl, rfl⟩
  | cons m l ih =>
    simp only [List.foldl_cons]
    have hb : (ditherBody d t st m).dithering = st.dithering ∧ (ditherBody d t st m).inner = st.inner ∧
        (ditherBody d t st m).sM = st.sM ∧ (ditherBody d t st m).curM = st.curM := by
      unfold ditherBody
      split_ifs <;> exact ⟨rfl, rfl, rfl, rfl⟩
    obtain ⟨i1, i2, i3, i4, i5⟩ := ih (ditherBody d t st m)
    refine ⟨?_, i2.trans hb.1, i3.trans hb.2.1, i4.trans hb.2.2.1, i5.trans hb.2.2.2⟩
    rw [i1, hb.1]
    by_cases h : |t - (d.ir m).t0| ≤ dtol d m
    · rw [List.filter_cons_of_pos (by simp [h]), List.map_cons, List.foldl_cons]
      congr 1
      have h' : allclose t (d.ir m).t0 d.inner.tt2 := h
      unfold ditherBody drawStep
      rw [if_pos h']
      by_cases hd : st.dithering = true
      · rw [if_pos hd, if_pos hd]
      · rw [if_neg hd, if_neg hd]
    · rw [List.filter_cons_of_neg (by simp [h])]
      have h' : ¬ allclose t (d.ir m).t0 d.inner.tt2 := h
      unfold ditherBody
      rw [if_neg h']

/-- updates of a dither history as calls on the wrapped control (specification) -/
def innerOps : List (DOp K M) → List (Op K M)
  | [] => []
  | .update t y :: r => .update t y :: innerOps r
  | _ :: r => innerOps r

theorem dRun_spec (d : Dither K R M) (ops : List (DOp K M)) (st : DState K R M) (l : List (Fin R × Bool))
    (h : (st.sR, st.idx) = l.foldl (drawStep d) (fun _ => 0, 0)) :
    ((dRun d st ops).sR, (dRun d st ops).idx) =
      (l ++ draws (fun m => (d.ir m).t0) (dtol d) st.dithering ops).foldl (drawStep d) (fun _ => 0, 0) := by
  induction ops generalizing st l with
  | nil => simp only [draws, List.append_nil]; exact h
  | cons op ops ih =>
    have e : dRun d st (op :: ops) = dRun d (dStep d st op) ops := rfl
    rw [e]
    cases op with
    | on => exact ih { st with dithering := true } l h
    | off => exact ih { st with dithering := false } l h
    | update t y =>
      simp only [draws, ← List.append_assoc]
      obtain ⟨h1, h2, -⟩ := ditherLoop d t (List.finRange R)
        { st with inner := update d.inner st.inner t y, sM := (update d.inner st.inner t y).s,
                  curM := fun m => 2 * (update d.inner st.inner t y).s m - 1 }
      have h3 := ih (dStep d st (.update t y))
        (l ++ ((List.finRange R).filter fun m => |t - (d.ir m).t0| ≤ dtol d m).map
          (fun m => (m, st.dithering))) (by
          rw [List.foldl_append, ← h]
          exact h1)
      have h4 : (dStep d st (.update t y)).dithering = st.dithering := h2
      rw [h4] at h3
      exact h3

theorem dRun_inner (d : Dither K R M) (ops : List (DOp K M)) (st : DState K R M) :
    (dRun d st ops).inner = run d.inner st.inner (innerOps ops) ∧
    (innerOps ops ≠ [] → (dRun d st ops).sM = (run d.inner st.inner (innerOps ops)).s) ∧
    (innerOps ops = [] → (dRun d st ops).sM = st.sM) := by
  induction ops generalizing st with
  | nil => exact ⟨rfl, fun h => absurd rfl h, fun _ => rfl⟩
  | cons op ops ih =>
    have e : dRun d st (op :: ops) = dRun d (dStep d st op) ops := rfl
    rw [e]
    cases op with
    | on => exact ih { st with dithering := true }
    | off => exact ih { st with dithering := false }
    | update t y =>
      obtain ⟨-, -, h3, h4, -⟩ := ditherLoop d t (List.finRange R)
        { st with inner := update d.inner st.inner t y, sM := (update d.inner st.inner t y).s,
                  curM := fun m => 2 * (update d.inner st.inner t y).s m - 1 }
      have h3' : (dStep d st (.update t y)).inner = update d.inner st.inner t y := h3
      have h4' : (dStep d st (.update t y)).sM = (update d.inner st.inner t y).s := h4
      obtain ⟨i1, i2, i3⟩ := ih (dStep d st (.update t y))
      simp only [innerOps]
      rw [h3'] at i1 i2
      refine ⟨i1, fun _ => ?_, by simp⟩
      by_cases hn : innerOps ops = []
      · rw [i3 hn, h4', hn]
        rfl
      · exact i2 hn

/-- **C19** after any history of updates and dither switches, the control signal is the dither values
followed by the wrapped control's own signal on the same observations; dither control `m` holds the table
entry of column `m` in the row given by the number of draws made before its last draw (modulo the table
size), 1/2 if dithering was off at that time, 0 if its phase never matched. -/
theorem C19_signal (d : Dither K R M) (b : Bool) (ops : List (DOp K M)) :
    ditherSignal (dRun d (DState.init b) ops) =
      Fin.append
        (drawn d.seq d.size (draws (fun m => (d.ir m).t0) (dtol d) b ops))
        (signal (run d.inner State.init (innerOps ops))) := by
  have h1 := dRun_spec d ops (DState.init b) [] rfl
  rw [List.nil_append, drawStep_spec] at h1
  have h1' := congrArg Prod.fst h1
  simp only at h1'
  unfold ditherSignal
  rw [h1']
  congr 1
  obtain ⟨-, i2, i3⟩ := dRun_inner d ops (DState.init b)
  by_cases hn : innerOps ops = []
  · rw [i3 hn, hn]
    rfl
  · exact i2 hn

/-- a full update draws once for every random control, in order -/
theorem draws_all (t0 tol : Fin R → K) (b : Bool) (l : List (K × (Fin M → K)))
    (h : ∀ x ∈ l, ∀ m, |x.1 - t0 m| ≤ tol m) :
    draws t0 tol b (l.map fun x => DOp.update x.1 x.2) =
      (List.replicate l.length ((List.finRange R).map fun m => (m, b))).flatten := by
  induction l with
  | nil => rfl
  | cons x l ih =>
    simp only [List.map_cons, draws, List.length_cons, List.replicate_succ, List.flatten_cons]
    rw [ih fun y hy => h y (by simp [hy])]
    congr 2
    rw [List.filter_eq_self]
    intro m _
    simpa using h x (by simp) m

theorem countP_flatten_replicate (k : ℕ) :
    (List.replicate k ((List.finRange R).map fun m => (m, true))).flatten.countP (·.2) = k * R := by
  induction k with
  | zero => simp
  | succ k ih =>
    rw [List.replicate_succ, List.flatten_cons, List.countP_append, ih, List.countP_map]
    have : List.countP ((fun x : Fin R × Bool => x.2) ∘ fun m => (m, true)) (List.finRange R) = R := by
      rw [List.countP_eq_length.mpr (by simp), List.length_finRange]
    rw [this]; ring

theorem drawn_row (seq : ℕ → Fin R → K) (size : ℕ) (l : List (Fin R × Bool)) (m : Fin R) :
    drawn seq size (l ++ (List.finRange R).map fun m => (m, true)) m =
      seq ((l.countP (·.2) + m) % size) m := by
  have key : ∀ j, j ≤ R → (m : ℕ) < j →
      drawn seq size (l ++ ((List.finRange R).take j).map fun m => (m, true)) m =
      seq ((l.countP (·.2) + m) % size) m := by
    intro j
    induction j with
    | zero => intro _ h; omega
    | succ j ih =>
      intro hj hm
      have hlen : j < (List.finRange R).length := by rw [List.length_finRange]; omega
      rw [List.take_succ_eq_append_getElem hlen, List.map_append, ← List.append_assoc, List.map_cons,
        List.map_nil, drawn_snoc]
      simp only [List.getElem_finRange, Fin.ext_iff, Fin.val_cast]
      by_cases h : j = m
      · rw [if_pos h, if_pos trivial, List.countP_append, List.countP_map]
        have : List.countP ((fun x : Fin R × Bool => x.2) ∘ fun m => (m, true)) ((List.finRange R).take j)
            = j := by
          rw [List.countP_eq_length.mpr (by simp), List.length_take, List.length_finRange]; omega
        rw [this, h]
      · rw [if_neg h]
        exact ih (by omega) (by omega)
  have := key R (le_refl R) m.isLt
  rwa [List.take_of_length_le (by rw [List.length_finRange])] at this

/-- **C19** special case: when all `R` dither phases match every update and dithering is on, after `k+1` updates
dither `m` holds row `(k R + m) mod size`, so rows are consumed in order, one per dither control -/
theorem C19_rows_in_order (d : Dither K R M) (l : List (K × (Fin M → K))) (x : K × (Fin M → K))
    (h : ∀ y ∈ l ++ [x], ∀ m, |y.1 - (d.ir m).t0| ≤ dtol d m) (m : Fin R) :
    ditherSignal (dRun d (DState.init true) ((l ++ [x]).map fun x => DOp.update x.1 x.2)) (Fin.castAdd M m) =
      d.seq ((l.length * R + m) % d.size) m := by
  rw [C19_signal, Fin.append_left, draws_all _ _ _ _ h, List.length_append, List.length_singleton,
    List.replicate_succ', List.flatten_append, List.flatten_singleton, drawn_row, countP_flatten_replicate]

/-- **C19** construction: like the base class for the dither phases -/
theorem C19_ctor (R : ℕ) (dc : DC K M) (ir : Option (List (IR K))) (seq : ℕ → Fin R → K) (size : ℕ)
    (tDelay : K) :
    (∃ d, Dither.new R dc ir seq size tDelay = .ok d ∧ d.inner = dc ∧ d.seq = seq ∧ d.size = size) ↔
      ValidArgs dc.T R ir tDelay none := by
  constructor
  · rintro ⟨d, hd, -⟩
    unfold Dither.new at hd
    split_ifs at hd with h1
    refine ⟨not_lt.mp h1, ?_, by simp⟩
    by_contra h2
    rw [initIR_error _ _ _ h2] at hd
    cases hd
  · rintro ⟨h1, h2, -⟩
    obtain ⟨f, hf, -⟩ := initIR_ok dc.T R ir h2
    refine ⟨⟨dc, f, seq, size, tDelay⟩, ?_, rfl, rfl, rfl⟩
    simp [Dither.new, not_lt.mpr h1, hf]

/-- example dither control: two dither controls, one wrapped control, table of three rows -/
def exDither : Dither ℚ 2 1 :=
  ⟨⟨1, 1/100, 0, fun _ => stepResponse 0, fun _ => 0⟩, fun _ => stepResponse 0,
    fun k m => if (k + m) % 2 = 0 then 1 else 0, 3, 0⟩

example : ∀ y ∈ ([(0, ![1])] ++ [(0, ![-1])] : List (ℚ × (Fin 1 → ℚ))), ∀ m,
    |y.1 - (exDither.ir m).t0| ≤ dtol exDither m := by
  intro y hy m
  have : y.1 = 0 := by
    simp only [List.singleton_append, List.mem_cons, List.not_mem_nil, or_false] at hy
    rcases hy with h | h <;> rw [h]
  rw [this]
  norm_num [exDither, dtol, stepResponse]

/-- **C59** a dither control with a positive excess delay cannot evaluate its contribution before the delay:
the call raises -/
theorem C59_dither_delay_false (d : Dither K R M) (st : DState K R M) (t : K) (hM : 0 < R + M)
    (ht : t < d.tDelay) : ditherContribution d st t = .error .attributeError := by
  unfold ditherContribution
  rw [if_pos ⟨ht, hM⟩]

/-- the loop over the random controls sets the DAC values of exactly the controls whose phase matches -/
theorem ditherLoop_dac (d : Dither K R M) (t : K) (l : List (Fin R)) (st : DState K R M) (m : Fin R) :
    (l.foldl (ditherBody d t) st).curR m =
        (if m ∈ l ∧ |t - (d.ir m).t0| ≤ dtol d m then 2 * (l.foldl (ditherBody d t) st).sR m - 1 else st.curR m) ∧
      (¬ (m ∈ l ∧ |t - (d.ir m).t0| ≤ dtol d m) → (l.foldl (ditherBody d t) st).sR m = st.sR m) := by
  induction l generalizing st with
  | nil => exact ⟨by simp, fun _ => rfl⟩
  | cons a l ih =>
    simp only [List.foldl_cons]
    obtain ⟨i1, i2⟩ := ih (ditherBody d t st a)
    by_cases hml : m ∈ l ∧ |t - (d.ir m).t0| ≤ dtol d m
    · rw [if_pos hml] at i1
      rw [if_pos ⟨List.mem_cons_of_mem _ hml.1, hml.2⟩]
      exact ⟨i1, fun h => absurd ⟨List.mem_cons_of_mem _ hml.1, hml.2⟩ h⟩
    · rw [if_neg hml] at i1
      have j2 := i2 hml
      by_cases hma : m = a
      · subst hma
        by_cases hc : |t - (d.ir m).t0| ≤ dtol d m
        · have h' : allclose t (d.ir m).t0 d.inner.tt2 := hc
          rw [if_pos ⟨List.mem_cons_self, hc⟩]
          refine ⟨?_, fun h => absurd ⟨List.mem_cons_self, hc⟩ h⟩
          rw [i1, j2]
          unfold ditherBody
          rw [if_pos h']
          by_cases hd : st.dithering = true
          · rw [if_pos hd]; simp
          · rw [if_neg hd]; simp
        · have h' : ¬ allclose t (d.ir m).t0 d.inner.tt2 := hc
          rw [if_neg (fun h => hc h.2)]
          have e : ditherBody d t st m = st := by unfold ditherBody; rw [if_neg h']
          rw [e] at i1 j2
          rw [e]
          exact ⟨i1, fun _ => j2⟩
      · have hiff : (m ∈ a :: l ∧ |t - (d.ir m).t0| ≤ dtol d m) ↔ (m ∈ l ∧ |t - (d.ir m).t0| ≤ dtol d m) := by
          rw [List.mem_cons]; tauto
        rw [if_neg (fun h => hml (hiff.1 h)), i1, j2]
        have e : (ditherBody d t st a).curR m = st.curR m ∧ (ditherBody d t st a).sR m = st.sR m := by
          unfold ditherBody
          split_ifs <;> simp [hma]
        exact ⟨e.1, fun _ => e.2⟩

/-- DAC values of the dither controls after a history: set by the draws, otherwise unchanged -/
theorem dRun_dacR (d : Dither K R M) (ops : List (DOp K M)) (st : DState K R M) (m : Fin R) :
    ((dRun d st ops).curR m =
      if m ∈ (draws (fun m => (d.ir m).t0) (dtol d) st.dithering ops).map Prod.fst then
        2 * (dRun d st ops).sR m - 1 else st.curR m) ∧
    (m ∉ (draws (fun m => (d.ir m).t0) (dtol d) st.dithering ops).map Prod.fst →
      (dRun d st ops).sR m = st.sR m) := by
  induction ops generalizing st with
  | nil => exact ⟨by simp [draws, dRun], fun _ => rfl⟩
  | cons op ops ih =>
    have e : dRun d st (op :: ops) = dRun d (dStep d st op) ops := rfl
    rw [e]
    cases op with
    | on => exact ih { st with dithering := true }
    | off => exact ih { st with dithering := false }
    | update t y =>
      obtain ⟨-, h2, -⟩ := ditherLoop d t (List.finRange R)
        { st with inner := update d.inner st.inner t y, sM := (update d.inner st.inner t y).s,
                  curM := fun m => 2 * (update d.inner st.inner t y).s m - 1 }
      obtain ⟨l1, l2⟩ := ditherLoop_dac d t (List.finRange R)
        { st with inner := update d.inner st.inner t y, sM := (update d.inner st.inner t y).s,
                  curM := fun m => 2 * (update d.inner st.inner t y).s m - 1 } m
      have h2' : (dStep d st (.update t y)).dithering = st.dithering := h2
      have l1' : (dStep d st (.update t y)).curR m =
        (if m ∈ List.finRange R ∧ |t - (d.ir m).t0| ≤ dtol d m then 2 * (dStep d st (.update t y)).sR m - 1
          else st.curR m) := l1
      have l2' : ¬ (m ∈ List.finRange R ∧ |t - (d.ir m).t0| ≤ dtol d m) →
        (dStep d st (.update t y)).sR m = st.sR m := l2
      obtain ⟨i1, i2⟩ := ih (dStep d st (.update t y))
      rw [h2'] at i1 i2
      simp only [draws, List.map_append, List.mem_append, List.map_map]
      have hmem : m ∈ ((List.finRange R).filter fun m => |t - (d.ir m).t0| ≤ dtol d m).map
          (Prod.fst ∘ fun m => (m, st.dithering)) ↔ (m ∈ List.finRange R ∧ |t - (d.ir m).t0| ≤ dtol d m) := by
        simp
      by_cases hr : m ∈ (draws (fun m => (d.ir m).t0) (dtol d) st.dithering ops).map Prod.fst
      · rw [if_pos hr] at i1
        rw [if_pos (Or.inr hr)]
        exact ⟨i1, fun h => absurd (Or.inr hr) h⟩
      · rw [if_neg hr] at i1
        have i2' := i2 hr
        by_cases hc : m ∈ List.finRange R ∧ |t - (d.ir m).t0| ≤ dtol d m
        · rw [if_pos (Or.inl (hmem.2 hc)), i1, l1', if_pos hc, i2']
          exact ⟨rfl, fun h => absurd (Or.inl (hmem.2 hc)) h⟩
        · rw [if_neg (by rw [hmem]; tauto), i1, l1', if_neg hc, i2', l2' hc]
          exact ⟨rfl, fun _ => rfl⟩

/-- DAC values of the wrapped controls after a history: set by the first update -/
theorem dRun_dacM (d : Dither K R M) (ops : List (DOp K M)) (st : DState K R M) (m : Fin M) :
    (dRun d st ops).curM m = if innerOps ops = [] then st.curM m else 2 * (dRun d st ops).sM m - 1 := by
  induction ops using List.reverseRecOn with
  | nil => rfl
  | append_singleton ops op ih =>
    have e : dRun d st (ops ++ [op]) = dStep d (dRun d st ops) op := by
      simp [dRun, List.foldl_append]
    have hi : innerOps (ops ++ [op]) = innerOps ops ++ innerOps [op] := by
      clear ih e
      induction ops with
      | nil => rfl
      | cons a ops ih => cases a <;> simp [innerOps, ih]
    rw [e, hi]
    cases op with
    | on => simpa [innerOps, dStep] using ih
    | off => simpa [innerOps, dStep] using ih
    | update t y =>
      obtain ⟨-, -, -, h4, h5⟩ := ditherLoop d t (List.finRange R)
        { dRun d st ops with
          inner := update d.inner (dRun d st ops).inner t y, sM := (update d.inner (dRun d st ops).inner t y).s,
          curM := fun m => 2 * (update d.inner (dRun d st ops).inner t y).s m - 1 }
      have h4' : (dStep d (dRun d st ops) (.update t y)).sM = _ := h4
      have h5' : (dStep d (dRun d st ops) (.update t y)).curM = _ := h5
      rw [h4', h5']
      simp [innerOps]

/-- **C59 (part that holds)** from the delay on, every control of a dither control contributes its impulse response
(shifted by a period before its own phase) times its DAC value: `2 s - 1` of its control signal once it has been decided
(a dither control once its phase matched an update, a wrapped control once there was any update), 0 before. -/
theorem C59_dither_contribution_partial (d : Dither K R M) (b : Bool) (ops : List (DOp K M)) (t : K)
    (ht : d.tDelay ≤ t) :
    ∃ c, ditherContribution d (dRun d (DState.init b) ops) t = .ok c ∧
      (∀ m : Fin R, c (Fin.castAdd M m) = (if t < (d.ir m).t0 then (d.ir m).f (t + d.inner.T) else (d.ir m).f t) *
        (if m ∈ (draws (fun m => (d.ir m).t0) (dtol d) b ops).map Prod.fst then
          2 * ditherSignal (dRun d (DState.init b) ops) (Fin.castAdd M m) - 1 else 0)) ∧
      (∀ m : Fin M, c (Fin.natAdd R m) =
        (if t < (d.inner.ir m).t0 then (d.inner.ir m).f (t + d.inner.T) else (d.inner.ir m).f t) *
        (if innerOps ops = [] then 0
          else 2 * ditherSignal (dRun d (DState.init b) ops) (Fin.natAdd R m) - 1)) := by
  refine ⟨_, by unfold ditherContribution; rw [if_neg (by intro h; exact absurd h.1 (not_lt.mpr ht))], ?_, ?_⟩
  · intro m
    have h := (dRun_dacR d ops (DState.init b) m).1
    simp only [ditherSignal, Fin.append_left]
    rw [h]
    rfl
  · intro m
    have h := dRun_dacM d ops (DState.init b) m
    simp only [ditherSignal, Fin.append_right]
    rw [h]
    rfl

/-- a delayed dither control is accepted by the constructor and then fails at t = 0 -/
example : ∃ d : Dither ℚ 1 1,
    Dither.new 1 (⟨1, 1/100, 0, fun _ => stepResponse 0, fun _ => 0⟩ : DC ℚ 1) none (fun _ _ => 1) 8 (1/4) = .ok d ∧
    ditherContribution d (DState.init true) 0 = .error .attributeError := by
  refine ⟨⟨⟨1, 1/100, 0, fun _ => stepResponse 0, fun _ => 0⟩, fun _ => stepResponse 0, fun _ _ => 1, 8, 1/4⟩,
    ?_, C59_dither_delay_false _ _ _ (by norm_num) (by norm_num)⟩
  norm_num [Dither.new, initIR]

/-- `C11_others_kept`: an update at half the period does not touch the first control of `exDC`; `C12_no_delay`: without delay
the second control, whose phase is half a period, applies the value of the end of the period before at a quarter. -/
example (y : Fin 2 → ℚ) (ops : List (Op ℚ 2)) :
    signal (update exDC State.init (1 / 2) y) 0 = signal (State.init : State ℚ 2) 0 ∧
    contribution { exDC with tDelay := 0 } (run { exDC with tDelay := 0 } State.init ops) (1 / 4) 1 =
      (exDC.ir 1).f (5 / 4) * decision (1 / 10) (matched (1 / 2) (tol exDC 1) 1 ops) := by
  refine ⟨(C11_others_kept exDC State.init (1 / 2) y 0 ?_).1, ?_⟩
  · norm_num [exDC, tol, stepResponse, abs_of_pos]
  · rw [C12_no_delay { exDC with tDelay := 0 } ops 1 (1 / 4) rfl (by norm_num), if_pos]
    · norm_num [exDC, tol, stepResponse]
    · norm_num [exDC, stepResponse]

/-- `C15_accepts`, `C15_rejects`: phases in order are accepted, a phase after the period is not. -/
example : (∃ dc : DC ℚ 2, DC.new (1 : ℚ) (1/100) 2 (some [stepResponse 0, stepResponse (1/2)]) (1/4) (some [0, 1/10]) = .ok dc) ∧
    DC.new (1 : ℚ) (1/100) 2 (some [stepResponse (1/2), stepResponse 0]) 0 none = .error .exception := by
  constructor
  · obtain ⟨dc, h, -⟩ := C15_accepts (1 : ℚ) (1/100) 2 (some [stepResponse 0, stepResponse (1/2)]) (1/4) (some [0, 1/10]) (by
      refine ⟨by norm_num, ?_, ?_⟩
      · intro l h
        simp only [Option.some.injEq] at h
        subst h
        norm_num [stepResponse]
      · intro o h
        simp only [Option.some.injEq] at h
        subst h
        rfl)
    exact ⟨dc, h⟩
  · refine C15_rejects _ _ _ _ _ _ ?_
    rintro ⟨-, h, -⟩
    have := (h _ rfl).2.2
    norm_num [stepResponse] at this

/-- `C17_value`, `C17_range`, `C17_monotone`, `C17_half_step` for four steps. -/
example : (∃ j : ℕ, j ≤ 4 ∧ quantize 4 (3 / 10 : ℚ) = some ((j : ℚ) / 4)) ∧
    (∃ a b, quantize 4 (3 / 10 : ℚ) = some a ∧ quantize 4 (1 / 2 : ℚ) = some b ∧ a ≤ b) ∧
    ∃ q, quantize 4 (3 / 10 : ℚ) = some q ∧ |(2 * q - 1) - 3 / 10| ≤ 1 / 4 := by
  refine ⟨?_, C17_monotone 4 (by norm_num) _ _ (by norm_num), ?_⟩
  · exact_mod_cast C17_range 4 (by norm_num) (3 / 10 : ℚ)
  · exact_mod_cast C17_half_step 4 (by norm_num) (3 / 10 : ℚ) (by norm_num [abs_of_pos])

/-- `C18_offsets_ignored`, `C18_length_partial`: two offsets for two controls change nothing, one offset is refused. -/
example : ML.new (1 : ℚ) (1/100) 2 [2, 4] none [1/2, 1/2] = ML.new (1 : ℚ) (1/100) 2 [2, 4] none [] ∧
    ML.new (1 : ℚ) (1/100) 2 [2, 4] none [1/2] = .error .exception :=
  ⟨C18_offsets_ignored _ _ _ _ _ _ (Or.inr rfl), C18_length_partial _ _ _ _ _ _ (by simp) (by simp)⟩

/-- `C19_rows_in_order`: the second row of the sequence after two updates. -/
example : ditherSignal (dRun exDither (DState.init true) ([(0, ![1]), (0, ![-1])].map fun x => DOp.update x.1 x.2)) 0 =
    exDither.seq 2 0 := by
  have := C19_rows_in_order exDither [(0, ![1])] (0, ![-1]) (by
    intro y hy m
    have : y.1 = 0 := by
      simp only [List.singleton_append, List.mem_cons, List.not_mem_nil, or_false] at hy
      rcases hy with h | h <;> rw [h]
    rw [this]
    norm_num [exDither, stepResponse, dtol]) 0
  exact this

end Cbadc.Control
