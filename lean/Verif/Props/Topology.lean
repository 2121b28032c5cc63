import Mathlib.Tactic.NormNum
import Mathlib.Tactic.FieldSimp
import Mathlib.Tactic.FinCases
import Verif.Lemmas.Stack

/-! # C22 – C25: chains, stacks and realisations -/

namespace Cbadc.Analog
open Finset Spec

variable {K : Type*} [Field K]

/-! ### C22: chain -/

theorem chain_err (f : Sys K) (l : List (Sys K)) (e : Exc)
    (h : chainLoop (total Sys.N (f :: l)) f.L (chainInit f) (f :: l) = .error e) :
    chain (f :: l) = .error e := by
  unfold chain
  dsimp only
  rw [h]

theorem chain_of_ok (f : Sys K) (l : List (Sys K)) (a : ChainAcc K)
    (h : chainLoop (total Sys.N (f :: l)) f.L (chainInit f) (f :: l) = .ok a) :
    chain (f :: l) = .ok ⟨total Sys.N (f :: l), f.L, total Sys.M (f :: l), total Sys.Mt (f :: l), a.p, a.A, a.B,
      a.CT, some a.Gamma, some a.GammaT, a.D, fun _ _ => 0, a.At⟩ := by
  unfold chain
  dsimp only
  rw [h]
  exact (C21_entries _ _ _ _ _ _ _ _ _ _ _ _ _).1

/-- **C22** exactly which lists `chain` accepts: the outputs of each system are the inputs of the next, and the
first system has as many outputs as inputs (see `C22_false`); otherwise it raises. -/
theorem C22_accepts (l : List (Sys K)) :
    ((∃ g, chain l = .ok g) ↔
      ∃ f, l.head? = some f ∧ f.L = f.Nt ∧ l.IsChain (fun g h => h.L = g.Nt)) ∧
    (∀ e, chain l = .error e → e = (if l = [] then .indexError else .valueError)) := by
  cases l with
  | nil => simp [chain]
  | cons f l =>
    have hl := loop_ok (total Sys.N (f :: l)) f.L (f :: l) (chainInit f)
    cases h : chainLoop (total Sys.N (f :: l)) f.L (chainInit f) (f :: l) with
    | error e =>
      rw [h] at hl
      rw [chain_err f l e h]
      have he := loop_err _ _ _ _ _ h
      simp only [reduceCtorEq, exists_false, List.head?_cons, Option.mem_def, Option.some.injEq,
        forall_eq', false_iff] at hl
      constructor
      · simp only [reduceCtorEq, exists_false, List.head?_cons, Option.some.injEq, false_iff]
        rintro ⟨g, rfl, h1, h2⟩
        exact hl ⟨h1, h2⟩
      · intro e' h'
        cases h'
        simpa using he
    | ok a =>
      rw [h] at hl
      simp only [Except.ok.injEq, exists_eq', List.head?_cons, Option.mem_def, Option.some.injEq,
        forall_eq', true_iff] at hl
      rw [chain_of_ok f l a h]
      constructor
      · exact ⟨fun _ => ⟨f, rfl, hl.1, hl.2⟩, fun _ => ⟨_, rfl⟩⟩
      · intro e he
        cases he

/-- **C22 is false when the first system has more outputs than inputs**: a single accepted system (two states,
one input, both states observed, as every chain of integrators in the library) cannot be chained at all. -/
theorem C22_false :
    ∃ g : Sys ℚ, Sys.new (.mat 2 2 fun r c => if r = c + 1 then 1 else 0)
        (.mat 2 1 fun r _ => if r = 0 then 1 else 0) (.mat 2 2 fun r c => if r = c then 1 else 0)
        none none none none none = .ok g ∧
      chain [g] = .error .valueError := by
  refine ⟨⟨2, 1, 0, 0, 2, fun r c => if r = c + 1 then 1 else 0, fun r _ => if r = 0 then 1 else 0,
    fun r c => if r = c then 1 else 0, none, none, fun _ _ => 0, fun _ _ => 0, fun _ _ => 0⟩, ?_, ?_⟩
  · rw [new_ok]
    simp [checkGamma_ok, checkGammaT_ok, checkB_ok, checkCT_ok, checkOpt_ok]
  · simp [chain, chainLoop, chainStep, chainInit]

/-- what an accepted chain consists of -/
theorem chain_ok_data (l : List (Sys K)) (g : Sys K) (h : chain l = .ok g) :
    ∃ f t a, l = f :: t ∧ chainLoop (total Sys.N l) f.L (chainInit f) l = .ok a ∧
      g.N = total Sys.N l ∧ g.L = f.L ∧ g.Nt = a.p ∧ g.A = a.A ∧ g.B = a.B ∧ g.CT = a.CT ∧ g.D = a.D := by
  cases l with
  | nil => simp [chain] at h
  | cons f l =>
    cases hl : chainLoop (total Sys.N (f :: l)) f.L (chainInit f) (f :: l) with
    | error e => rw [chain_err f l e hl] at h; cases h
    | ok a =>
      rw [chain_of_ok f l a hl] at h
      cases h
      exact ⟨f, l, a, rfl, hl, rfl, rfl, rfl, rfl, rfl, rfl, rfl⟩

theorem chainInit_inv (f : Sys K) (N : ℕ) : Inv N f.N (chainInit f) where
  hA := fun r hr => absurd hr (by simp [chainInit])
  hC := fun j c hc _ => by
    simp only [chainInit]
    rw [blockSet_out (by omega)]

theorem chainInit_T (f : Sys K) (hf : f.L = f.Nt) (s : K) (u y : ℕ → K) :
    AccT f.L (chainInit f) s u y ↔ ∀ r < f.L, y r = u r := by
  unfold AccT StateEq OutEq
  simp only [chainInit, not_lt_zero, false_imp_iff, implies_true, range_zero, sum_empty, zero_add, true_and,
    exists_const, ite_mul, one_mul, zero_mul, sum_ite_eq, mem_range]
  rw [hf]
  constructor
  · intro h r hr
    rw [h r hr, if_pos hr]
  · intro h r hr
    rw [h r hr, if_pos hr]

/-- only the input amplitudes with an index below `L` matter -/
theorem transfers_congr (g : Sys K) (s : K) (u u' y : ℕ → K) (h : ∀ r < g.L, u r = u' r) :
    Transfers g s u y ↔ Transfers g s u' y := by
  have e : ∀ (B : ℕ → ℕ → K) r, ∑ c ∈ range g.L, B r c * u c = ∑ c ∈ range g.L, B r c * u' c := by
    intro B r
    apply Finset.sum_congr rfl
    intro c hc
    rw [h c (mem_range.mp hc)]
  unfold Transfers StateEq OutEq
  simp only [e]

theorem cascade_congr (g : Sys K) (l : List (Sys K)) (s : K) (u u' y : ℕ → K) (h : ∀ r < g.L, u r = u' r) :
    Cascade (g :: l) s u y ↔ Cascade (g :: l) s u' y := by
  cases l with
  | nil => exact transfers_congr g s u u' y h
  | cons f l =>
    simp only [Cascade]
    simp only [transfers_congr g s u u' _ h]

/-- **C22 (part that holds)** at *every* complex frequency, poles included, the input-output relation of an
accepted chain is the composition of the relations of its parts in the listed order. -/
theorem C22_chain_partial (l : List (Sys K)) (g : Sys K) (h : chain l = .ok g) (s : K) (u y : ℕ → K) :
    Transfers g s u y ↔ Cascade l s u y := by
  have hacc := (C22_accepts l).1.mp ⟨g, h⟩
  obtain ⟨f, t, a, rfl, hl, hN, hL, hNt, hA, hB, hC, hD⟩ := chain_ok_data l g h
  obtain ⟨f', hf', hfL, -⟩ := hacc
  simp only [List.head?_cons, Option.some.injEq] at hf'
  subst hf'
  obtain ⟨h1, h2, -⟩ := loop_T _ _ _ _ _ f.N (by simp [chainInit]) (by simp [chainInit])
    (chainInit_inv f _) hl s
  have e : Transfers g s u y ↔ AccT f.L a s u y := by
    unfold Transfers AccT
    rw [hN, hL, hNt, hA, hB, hC, hD, h2]
    simp [chainInit]
  rw [e, h1, cascadeFrom_cons]
  constructor
  · rintro ⟨v, hv, hc⟩
    rw [chainInit_T f hfL] at hv
    exact (cascade_congr f t s v u y hv).mp hc
  · intro hc
    exact ⟨u, (chainInit_T f hfL s u u).mpr (fun _ _ => rfl), hc⟩

theorem cascade_through (l : List (Sys K)) (hl : l ≠ []) (s : K) (hreg : ∀ f ∈ l, Regular f.N f.A s)
    (u : ℕ → K) : Cascade l s u (l.foldl (through s) u) := by
  have one : ∀ (f : Sys K) (u : ℕ → K), Regular f.N f.A s → Transfers f s u (through s u f) := by
    intro f u hf
    rw [transfers_iff f s hf]
    intro i
    simp [through]
  induction l generalizing u with
  | nil => exact absurd rfl hl
  | cons f l ih =>
    cases l with
    | nil => exact one f u (hreg f (by simp))
    | cons g l =>
      exact ⟨through s u f, one f u (hreg f (by simp)),
        ih (by simp) (fun f' hf' => hreg f' (by simp [hf'])) _⟩

/-- **C22 (part that holds)** where no part has a pole, the chain has none, and its transfer function matrix is
the product of the transfer function matrices (each applied to the result of the previous ones). -/
theorem C22_transfer_function_partial (l : List (Sys K)) (g : Sys K) (h : chain l = .ok g) (s : K)
    (hpoles : ∀ f ∈ l, (s • (1 : Matrix (Fin f.N) (Fin f.N) K) - toM f.N f.N f.A).det ≠ 0) :
    (s • (1 : Matrix (Fin g.N) (Fin g.N) K) - toM g.N g.N g.A).det ≠ 0 ∧
    ∀ (u : ℕ → K) (i : Fin g.Nt), (g.tfm s).mulVec (fun k => u k) i = l.foldl (through s) u i := by
  have hreg : ∀ f ∈ l, Regular f.N f.A s := fun f hf => (regular_iff_det _ _ _).mpr (hpoles f hf)
  have hg : Regular g.N g.A s := by
    obtain ⟨f, t, a, rfl, hl, hN, hL, hNt, hA, hB, hC, hD⟩ := chain_ok_data l g h
    obtain ⟨-, h2, h3⟩ := loop_T _ _ _ _ _ f.N (by simp [chainInit]) (by simp [chainInit])
      (chainInit_inv f _) hl s
    have := h3 (by intro x _ r hr; simp [chainInit] at hr) hreg
    rw [h2] at this
    rw [hN, hA]
    simpa [chainInit] using this
  refine ⟨(regular_iff_det _ _ _).mp hg, fun u i => ?_⟩
  have hne : l ≠ [] := by
    rintro rfl
    simp [chain] at h
  have := (C22_chain_partial l g h s u _).mpr (cascade_through l hne s hreg u)
  rw [transfers_iff g s hg] at this
  exact (this i).symm

/-- `C22_chain_partial`:
one integrator with a pole at `-1` and one with a direct term: both satisfy the hypotheses, and the list is
accepted -/
example : ∃ g : Sys ℚ, chain
    [⟨1, 1, 0, 0, 1, fun _ _ => -1, fun _ _ => 1, fun _ _ => 1, none, none, fun _ _ => 0, fun _ _ => 0,
      fun _ _ => 0⟩,
     ⟨1, 1, 0, 0, 2, fun _ _ => -2, fun _ _ => 3, fun r _ => (r : ℚ), none, none, fun r _ => (r : ℚ) + 1, fun _ _ => 0,
      fun _ _ => 0⟩] = .ok g :=
  (C22_accepts _).1.mpr ⟨_, rfl, rfl, by simp⟩

example : ((1 : ℚ) • (1 : Matrix (Fin 1) (Fin 1) ℚ) - toM 1 1 fun _ _ => -1).det ≠ 0 := by
  simp [toM]

/-! ### C23: stack -/

/-- **C23** `stack` accepts every non-empty list; dimensions add up. -/
theorem C23_accepts (l : List (Sys K)) :
    (l = [] → stack l = .error .typeError) ∧
    (l ≠ [] → ∃ g, stack l = .ok g ∧ g.N = total Sys.N l ∧ g.L = total Sys.L l ∧ g.M = total Sys.M l ∧
      g.Mt = total Sys.Mt l ∧ g.Nt = total Sys.Nt l) := by
  constructor
  · rintro rfl
    rfl
  · intro h
    exact ⟨_, stack_eq l h, rfl, rfl, rfl, rfl, rfl⟩

/-- **C23** every part of a stack sees only its own states, inputs and controls: the right hand side of the
stack's differential equation, restricted to the states of a part, is that of the part. -/
theorem C23_trajectory (l1 : List (Sys K)) (g : Sys K) (l2 : List (Sys K)) (S : Sys K)
    (h : stack (l1 ++ g :: l2) = .ok S) (x u s : Vec K) (hx : x.len = S.N) (hu : u.len = S.L)
    (hs : s.len = S.M) :
    ∃ d, S.derivative x u s = .ok d ∧ d.len = S.N ∧ ∀ i < g.N, d.v (total Sys.N l1 + i) =
      rhs g (shift (total Sys.N l1) x.v) (shift (total Sys.L l1) u.v) (shift (total Sys.M l1) s.v) i := by
  rw [stack_eq _ (by simp)] at h
  cases h
  obtain ⟨d, h1, h2, h3⟩ := (C21_derivative_partial _ _ rfl x u s).1 ⟨hx, hu, hs⟩
  refine ⟨d, h1, h2, fun i hi => ?_⟩
  rw [h3]
  simp only
  rw [stackMat_sum _ _ _ _ _ _ _ hi, stackMat_sum _ _ _ _ _ _ _ hi, stackMat_sum _ _ _ _ _ _ _ hi]
  unfold rhs
  cases hG : g.Gamma with
  | none => simp [optBlock]
  | some G => simp [optBlock]

/-- **C23** likewise the signal observation -/
theorem C23_signal_observation (l1 : List (Sys K)) (g : Sys K) (l2 : List (Sys K)) (S : Sys K)
    (h : stack (l1 ++ g :: l2) = .ok S) (x : Vec K) (hx : x.len = S.N) :
    ∃ y, S.signalObservation x = .ok y ∧ y.len = S.Nt ∧ ∀ i < g.Nt, y.v (total Sys.Nt l1 + i) =
      ∑ c ∈ range g.N, g.CT i c * shift (total Sys.N l1) x.v c := by
  rw [stack_eq _ (by simp)] at h
  cases h
  obtain ⟨y, h1, h2, h3⟩ := (C21_signal_observation _ x).1 hx
  refine ⟨y, h1, h2, fun i hi => ?_⟩
  rw [h3]
  exact stackMat_sum _ _ _ _ _ _ _ hi _

/-- **C23 (part that holds)** likewise the control observation, for parts without a direct path from the input
to the control observation; the stack has none. -/
theorem C23_control_observation_partial (l1 : List (Sys K)) (g : Sys K) (l2 : List (Sys K)) (S : Sys K)
    (h : stack (l1 ++ g :: l2) = .ok S) (hBt : ∀ r c, g.Bt r c = 0) (x u s : Vec K) (hx : x.len = S.N)
    (hu : u.len = S.L) (hs : s.len = S.M) :
    ∃ y, S.controlObservation x (some u) (some s) = .ok y ∧ y.len = S.Mt ∧
      ∀ i < g.Mt, y.v (total Sys.Mt l1 + i) =
        cObs g (shift (total Sys.N l1) x.v) (shift (total Sys.L l1) u.v) (shift (total Sys.M l1) s.v) i := by
  rw [stack_eq _ (by simp)] at h
  cases h
  obtain ⟨⟨y, h1, h2, h3⟩, -⟩ := C27_observation_partial _ _ rfl x u s hx hu hs
  refine ⟨y, h1, h2, fun i hi => ?_⟩
  rw [h3]
  simp only
  rw [stackMat_sum _ _ _ _ _ _ _ hi, stackMat_sum _ _ _ _ _ _ _ hi]
  unfold cObs
  simp only [hBt, zero_mul, sum_const_zero, add_zero]
  cases hG : g.GammaT with
  | none => simp [optBlock]
  | some G => simp [optBlock]

/-- **C23 is false for the control observation of a part with `B_tilde`**: the stack drops it. -/
theorem C23_control_observation_false :
    ∃ (g S : Sys ℚ), stack [g] = .ok S ∧ ∃ x u s : Vec ℚ, x.len = S.N ∧ u.len = S.L ∧ s.len = S.M ∧
      (∃ y, g.controlObservation x (some u) (some s) = .ok y ∧ y.v 0 = 1) ∧
      (∃ y, S.controlObservation x (some u) (some s) = .ok y ∧ y.v 0 = 0) := by
  refine ⟨⟨1, 1, 1, 1, 1, fun _ _ => 0, fun _ _ => 1, fun _ _ => 1, some fun _ _ => 1, some fun _ _ => 1,
    fun _ _ => 0, fun _ _ => 1, fun _ _ => 0⟩, _, stack_eq _ (by simp), ⟨1, fun _ => 0⟩, ⟨1, fun _ => 1⟩,
    ⟨1, fun _ => 0⟩, rfl, rfl, rfl, ?_, ?_⟩
  · refine ⟨_, rfl, ?_⟩
    simp [npAdd, dot]
  · refine ⟨_, rfl, ?_⟩
    simp [npAdd, dot]

/-- **C23** at every complex frequency the input-output relation of the stack is the independent combination
of those of the parts. -/
theorem C23_transfers (l : List (Sys K)) (S : Sys K) (h : stack l = .ok S) (s : K) (u y : ℕ → K) :
    Transfers S s u y ↔ ∀ l1 g l2, l = l1 ++ g :: l2 →
      Transfers g s (shift (total Sys.L l1) u) (shift (total Sys.Nt l1) y) := by
  have hne : l ≠ [] := by
    rintro rfl
    cases h
  rw [stack_eq l hne] at h
  cases h
  constructor
  · rintro ⟨x, hS, hO⟩ l1 g l2 rfl
    refine ⟨shift (total Sys.N l1) x, fun r hr => ?_, fun r hr => ?_⟩
    · have := hS (total Sys.N l1 + r) (by
        simp only [total_append, total_cons]; omega)
      simp only at this
      rw [stackMat_sum _ _ _ _ _ _ _ hr, stackMat_sum _ _ _ _ _ _ _ hr] at this
      exact this
    · have := hO (total Sys.Nt l1 + r) (by
        simp only [total_append, total_cons]; omega)
      simp only at this
      rw [stackMat_sum _ _ _ _ _ _ _ hr, stackMat_sum _ _ _ _ _ _ _ hr] at this
      exact this
  · intro h
    obtain ⟨x, hx⟩ := assemble l (fun l1 g _ x =>
      StateEq g.N g.L g.A g.B s (shift (total Sys.L l1) u) x ∧
      OutEq g.Nt g.N g.L g.CT g.D (shift (total Sys.L l1) u) x (shift (total Sys.Nt l1) y))
      (fun l1 g l2 e => h l1 g l2 e)
    refine ⟨x, ?_, ?_⟩
    · intro r hr
      obtain ⟨l1, g, l2, i, rfl, hi, rfl⟩ := exists_part Sys.N l r hr
      obtain ⟨z, ⟨h1, -⟩, h3⟩ := hx l1 g l2 rfl
      simp only
      rw [stackMat_sum _ _ _ _ _ _ _ hi, stackMat_sum _ _ _ _ _ _ _ hi, h3 i hi, h1 i hi]
      congr 1
      apply Finset.sum_congr rfl
      intro c hc
      rw [shift, h3 c (mem_range.mp hc)]
    · intro r hr
      obtain ⟨l1, g, l2, i, rfl, hi, rfl⟩ := exists_part Sys.Nt l r hr
      obtain ⟨z, ⟨-, h2⟩, h3⟩ := hx l1 g l2 rfl
      simp only
      rw [stackMat_sum _ _ _ _ _ _ _ hi, stackMat_sum _ _ _ _ _ _ _ hi]
      have := h2 i hi
      rw [shift] at this
      rw [this]
      congr 1
      apply Finset.sum_congr rfl
      intro c hc
      rw [shift, h3 c (mem_range.mp hc)]

/-- **C23** where no part has a pole, the stack has none and its transfer function matrix is block diagonal:
each part's outputs are its transfer function matrix applied to its own inputs. -/
theorem C23_transfer_function (l : List (Sys K)) (S : Sys K) (h : stack l = .ok S) (s : K)
    (hpoles : ∀ f ∈ l, (s • (1 : Matrix (Fin f.N) (Fin f.N) K) - toM f.N f.N f.A).det ≠ 0) :
    (s • (1 : Matrix (Fin S.N) (Fin S.N) K) - toM S.N S.N S.A).det ≠ 0 ∧
    ∀ (u : ℕ → K) l1 g l2 (_ : l = l1 ++ g :: l2) (i : Fin g.Nt) (j : Fin S.Nt), (j : ℕ) = total Sys.Nt l1 + i →
      (S.tfm s).mulVec (fun k => u k) j = (g.tfm s).mulVec (fun k => shift (total Sys.L l1) u k) i := by
  have hreg : ∀ f ∈ l, Regular f.N f.A s := fun f hf => (regular_iff_det _ _ _).mpr (hpoles f hf)
  have hne : l ≠ [] := by
    rintro rfl
    cases h
  have hS : Regular S.N S.A s := by
    rw [stack_eq l hne] at h
    cases h
    intro x hx r hr
    obtain ⟨l1, g, l2, i, rfl, hi, rfl⟩ := exists_part Sys.N l r hr
    refine hreg g (by simp) (shift (total Sys.N l1) x) (fun r hr => ?_) i hi
    have := hx (total Sys.N l1 + r) (by simp only [total_append, total_cons]; omega)
    simp only at this
    rw [stackMat_sum _ _ _ _ _ _ _ hr] at this
    exact this
  refine ⟨(regular_iff_det _ _ _).mp hS, ?_⟩
  intro u l1 g l2 e i j hj
  let y : ℕ → K := fun r => if hr : r < S.Nt then (S.tfm s).mulVec (fun k => u k) ⟨r, hr⟩ else 0
  have hy : Transfers S s u y := by
    rw [transfers_iff S s hS]
    intro i
    simp [y]
  have := (C23_transfers l S h s u y).mp hy l1 g l2 e
  rw [transfers_iff g s (hreg g (by simp [e]))] at this
  rw [← this i, shift, ← hj]
  simp [y]

/-- `C23_accepts`, `C23_trajectory`, `C23_signal_observation`, `C23_control_observation_partial`, `C23_transfers` -/
example : ∃ S : Sys ℚ, stack
    [⟨1, 1, 0, 0, 1, fun _ _ => -1, fun _ _ => 1, fun _ _ => 1, none, none, fun _ _ => 0, fun _ _ => 0,
      fun _ _ => 0⟩,
     ⟨1, 2, 0, 0, 2, fun _ _ => -2, fun _ _ => 3, fun r _ => (r : ℚ), none, none, fun r _ => (r : ℚ) + 1, fun _ _ => 0,
      fun _ _ => 0⟩] = .ok S ∧ S.L = 3 ∧ S.Nt = 3 :=
  ⟨_, stack_eq _ (by simp), rfl, rfl⟩

/-! ### C24: transfer function realisation -/

/-- the single input, single output analog system of a realisation -/
def ABCD.sys (q : ABCD K) : Sys K :=
  ⟨q.n, 1, 0, 0, 1, q.A, q.B, q.CT, none, none, q.D, fun _ _ => 0, fun _ _ => 0⟩

theorem ABCD.sys_new (q : ABCD K) : Sys.new (.mat q.n q.n q.A) (.mat q.n 1 q.B) (.mat 1 q.n q.CT) none none
    (some (.mat 1 1 q.D)) none none = .ok q.sys := by
  rw [new_ok]
  simp [checkGamma_ok, checkGammaT_ok, checkB_ok, checkCT_ok, checkOpt_ok, ABCD.sys]

/-- the transfer function of a single input, single output system is its response to the unit amplitude -/
theorem siso_tfm (q : ABCD K) (s v : K) (hreg : Regular q.sys.N q.sys.A s)
    (h : ∀ y, Transfers q.sys s (fun _ => 1) y → y 0 = v) :
    q.sys.tfm s = Matrix.of fun (_ : Fin 1) (_ : Fin 1) => v := by
  have key : ∀ T : Matrix (Fin 1) (Fin 1) K, (∀ y : ℕ → K, Transfers q.sys s (fun _ => 1) y ↔
      ∀ i : Fin 1, y i = T.mulVec (fun _ => 1) i) → T = Matrix.of fun (_ : Fin 1) (_ : Fin 1) => v := by
    intro T hT
    have := h (fun _ => T 0 0) ((hT _).mpr (by
      intro i
      rw [Subsingleton.elim i 0, Matrix.mulVec, dotProduct, Fin.sum_univ_one, mul_one]))
    ext i j
    rw [Subsingleton.elim i 0, Subsingleton.elim j 0]
    exact this
  exact key _ (fun y => transfers_iff q.sys s hreg _ y)

/-- a companion matrix row by row: the states are consecutive multiples by `s` -/
theorem companion_states (n : ℕ) (s : K) (α : ℕ → K) (x : ℕ → K) (w : K) (hn : 0 < n)
    (h : ∀ r < n, s * x r = (∑ c ∈ range n,
      (if r = n - 1 then -α c else if c = r + 1 then (1 : K) else 0) * x c) + (if r = n - 1 then 1 else 0) * w) :
    (∀ r < n, x r = s ^ r * x 0) ∧ (s ^ n + ∑ c ∈ range n, α c * s ^ c) * x 0 = w := by
  have h1 : ∀ r < n, x r = s ^ r * x 0 := by
    intro r
    induction r with
    | zero => intro _; simp
    | succ r ih =>
      intro hr
      have := h r (by omega)
      rw [if_neg (by omega)] at this
      have e : ∑ c ∈ range n, (if r = n - 1 then -α c else if c = r + 1 then (1 : K) else 0) * x c = x (r + 1) := by
        rw [Finset.sum_eq_single (r + 1)]
        · rw [if_neg (by omega), if_pos rfl, one_mul]
        · intro c _ hc
          rw [if_neg (by omega), if_neg hc, zero_mul]
        · intro hc
          exact absurd (mem_range.mpr hr) hc
      rw [e, ih (by omega)] at this
      rw [pow_succ]
      linear_combination -this
  refine ⟨h1, ?_⟩
  have := h (n - 1) (by omega)
  simp only [if_true] at this
  rw [h1 (n - 1) (by omega)] at this
  have e2 : ∑ c ∈ range n, -α c * x c = -(∑ c ∈ range n, α c * s ^ c) * x 0 := by
    rw [← Finset.sum_neg_distrib, Finset.sum_mul]
    apply Finset.sum_congr rfl
    intro c hc
    rw [h1 c (mem_range.mp hc)]
    ring
  rw [e2] at this
  obtain ⟨m, rfl⟩ : ∃ m, n = m + 1 := ⟨n - 1, by omega⟩
  simp only [Nat.add_sub_cancel] at this
  rw [pow_succ]
  linear_combination this

/-- **C24** `tf2abcd(b, a)` is accepted exactly for `len(b) = len(a) + 1 ≥ 2`.  At every frequency that is not a
zero of the (monic) denominator the realisation has no pole and its transfer function is `b(s) / a(s)`. -/
theorem C24_tf2abcd (b a : List K) :
    ((∃ q, tf2abcd b a = .ok q) ↔ b.length = a.length + 1 ∧ a ≠ []) ∧
    ∀ q, tf2abcd b a = .ok q → q.n = a.length ∧ ∀ s, poly (1 :: a) s ≠ 0 →
      (s • (1 : Matrix (Fin q.sys.N) (Fin q.sys.N) K) - toM q.sys.N q.sys.N q.sys.A).det ≠ 0 ∧
      q.sys.tfm s = Matrix.of fun (_ : Fin 1) (_ : Fin 1) => poly b s / poly (1 :: a) s := by
  constructor
  · unfold tf2abcd
    by_cases h1 : b.length = a.length + 1
    · by_cases h2 : a = []
      · subst h2
        simp [h1]
      · have : a.length ≠ 0 := by simpa using h2
        rw [if_neg (by simpa using h1), if_neg this]
        simp [h1, h2]
    · rw [if_pos h1]
      simp [h1]
  intro q hq
  unfold tf2abcd at hq
  split_ifs at hq with h1 h2
  have h1 : b.length = a.length + 1 := not_not.mp h1
  cases hq
  refine ⟨rfl, fun s hs => ?_⟩
  obtain ⟨β, b, rfl⟩ : ∃ β b', b = β :: b' := by
    cases b with
    | nil => simp at h1
    | cons β b => exact ⟨β, b, rfl⟩
  simp only [List.length_cons, add_left_inj] at h1
  simp only [List.getD_cons_zero, List.tail_cons]
  set n := a.length with hn
  have hpos : 0 < n := Nat.pos_of_ne_zero h2
  have hden : poly (1 :: a) s = s ^ n + ∑ c ∈ range n, a.reverse.getD c 0 * s ^ c := by
    rw [poly_cons, one_mul, poly_sum]
  set q : ABCD K := { n := n
                      A := fun r c => if r = n - 1 then -(a.reverse.getD c 0) else if c = r + 1 then 1 else 0
                      B := fun r _ => if r = n - 1 then 1 else 0
                      CT := fun _ c => (List.zipWith (fun bi ai => bi - β * ai) b a).reverse.getD c 0
                      D := fun _ _ => β } with hqd
  have hreg : Regular q.sys.N q.sys.A s := by
    intro x hx
    have := companion_states n s (fun c => a.reverse.getD c 0) x 0 hpos (by
      intro r hr
      rw [mul_zero, add_zero]
      exact hx r hr)
    rw [← hden] at this
    have hx0 : x 0 = 0 := by
      rcases mul_eq_zero.mp this.2 with h | h
      · exact absurd h hs
      · exact h
    intro r hr
    rw [this.1 r hr, hx0, mul_zero]
  refine ⟨(regular_iff_det _ _ _).mp hreg, ?_⟩
  refine siso_tfm q s _ hreg ?_
  rintro y ⟨x, hS, hO⟩
  have hst := companion_states n s (fun c => a.reverse.getD c 0) x 1 hpos (by
    intro r hr
    have := hS r hr
    simp only [ABCD.sys, hqd] at this
    rw [this]
    simp)
  rw [← hden] at hst
  have hout := hO 0 (by simp [ABCD.sys])
  rw [eq_div_iff hs, hout]
  have e1 : ∑ c ∈ range q.sys.N, q.sys.CT 0 c * x c = (poly b s - β * poly a s) * x 0 := by
    rw [← poly_zipWith β b a s h1, poly_sum, Finset.sum_mul]
    have : (List.zipWith (fun bi ai => bi - β * ai) b a).length = n := by
      rw [List.length_zipWith, h1, min_self]
    rw [this]
    apply Finset.sum_congr rfl
    intro c hc
    have hc' : c < n := mem_range.mp hc
    rw [hst.1 c hc']
    simp only [ABCD.sys, hqd]
    ring
  rw [e1]
  have e2 : ∑ c ∈ range q.sys.L, q.sys.D 0 c * 1 = β := by simp [ABCD.sys, hqd]
  rw [e2, poly_cons β b, h1, poly_cons 1 a, one_mul] at *
  linear_combination (poly b s - β * poly a s) * hst.2

example : ∃ q : ABCD ℚ, tf2abcd [1, 2, 3] [4, 5] = .ok q := (C24_tf2abcd _ _).1.mpr ⟨rfl, by simp⟩
example : poly [1, 4, (5 : ℚ)] 2 ≠ 0 := by simp [poly]; norm_num

/-! ### C25: second order sections -/

/-- the system of one section -/
def biquadSys (q : Sos K) : Sys K :=
  ⟨2, 1, 0, 0, 1,
    fun r c => if r = 0 then (if c = 0 then 0 else 1) else (if c = 0 then -(q.a2 / q.a0) else -(q.a1 / q.a0)),
    fun r _ => if r = 0 then 0 else 1,
    fun _ c => if c = 0 then q.b2 / q.a0 - q.b0 / q.a0 * (q.a2 / q.a0)
      else q.b1 / q.a0 - q.b0 / q.a0 * (q.a1 / q.a0),
    none, none, fun _ _ => q.b0 / q.a0, fun _ _ => 0, fun _ _ => 0⟩

theorem biquad_eq (q : Sos K) : biquad q = .ok (biquadSys q) := by
  unfold biquad biquadSys
  dsimp only
  rw [new_ok]
  simp [checkGamma_ok, checkGammaT_ok, checkB_ok, checkCT_ok, checkOpt_ok]

theorem mapM_biquad (l : List (Sos K)) : l.mapM biquad = (.ok (l.map biquadSys) : Res _) := by
  induction l with
  | nil => rfl
  | cons q l ih =>
    rw [List.mapM_cons, biquad_eq, ih]
    rfl

/-- a section's states are determined by its input -/
theorem biquad_states (q : Sos K) (h0 : q.a0 ≠ 0) (s w : K) (x : ℕ → K)
    (h : StateEq 2 1 (biquadSys q).A (biquadSys q).B s (fun _ => w) x) :
    x 1 = s * x 0 ∧ (q.a0 * s ^ 2 + q.a1 * s + q.a2) * x 0 = q.a0 * w := by
  have e0 := h 0 (by norm_num)
  have e1 := h 1 (by norm_num)
  simp only [biquadSys, Finset.sum_range_succ, Finset.sum_range_zero, if_true, one_ne_zero, if_false, zero_add,
    zero_mul, one_mul, add_zero] at e0 e1
  refine ⟨e0.symm, ?_⟩
  rw [← e0] at e1
  field_simp at e1
  linear_combination e1

theorem biquad_regular (q : Sos K) (h0 : q.a0 ≠ 0) (s : K) (h : q.a0 * s ^ 2 + q.a1 * s + q.a2 ≠ 0) :
    Regular (biquadSys q).N (biquadSys q).A s := by
  intro x hx
  have := biquad_states q h0 s 0 x (by
    intro r hr
    rw [hx r hr]
    simp [biquadSys])
  rw [mul_zero] at this
  have hx0 : x 0 = 0 := by
    rcases mul_eq_zero.mp this.2 with h' | h'
    · exact absurd h' h
    · exact h'
  intro r hr
  have hr2 : r < 2 := hr
  rcases Nat.lt_or_ge r 1 with h1 | h1
  · obtain rfl : r = 0 := by omega
    exact hx0
  · obtain rfl : r = 1 := by omega
    rw [this.1, hx0, mul_zero]

theorem biquad_transfers (q : Sos K) (h0 : q.a0 ≠ 0) (s : K) (h : q.a0 * s ^ 2 + q.a1 * s + q.a2 ≠ 0)
    (u y : ℕ → K) (ht : Transfers (biquadSys q) s u y) :
    y 0 = (q.b0 * s ^ 2 + q.b1 * s + q.b2) / (q.a0 * s ^ 2 + q.a1 * s + q.a2) * u 0 := by
  obtain ⟨x, hS, hO⟩ := ht
  have e := biquad_states q h0 s (u 0) x (by
    intro r hr
    rw [hS r hr]
    simp [biquadSys])
  have eo := hO 0 (by simp [biquadSys])
  simp only [biquadSys, Finset.sum_range_succ, Finset.sum_range_zero, if_true, one_ne_zero, if_false, zero_add] at eo
  rw [e.1] at eo
  rw [div_mul_eq_mul_div, eq_div_iff h, eo]
  have h2 : x 0 * (q.a0 * s ^ 2 + q.a1 * s + q.a2) = q.a0 * u 0 := by rw [mul_comm]; exact e.2
  field_simp
  linear_combination (q.b2 * q.a0 - q.b0 * q.a2 + (q.b1 * q.a0 - q.b0 * q.a1) * s) * h2

/-- **C25** every non-empty array of sections is accepted.  Where no section has a pole, the state space has
none, and its transfer function is the product of the sections' transfer functions
`(b0 s^2 + b1 s + b2) / (a0 s^2 + a1 s + a2)`; `a0` need not be one. -/
theorem C25_sos2abcd (l : List (Sos K)) (hl : l ≠ []) (h0 : ∀ q ∈ l, q.a0 ≠ 0) :
    ∃ q, sos2abcd l = .ok q ∧ q.n = 2 * l.length ∧
      ∀ s, (∀ q ∈ l, q.a0 * s ^ 2 + q.a1 * s + q.a2 ≠ 0) →
      (s • (1 : Matrix (Fin q.sys.N) (Fin q.sys.N) K) - toM q.sys.N q.sys.N q.sys.A).det ≠ 0 ∧
      q.sys.tfm s = Matrix.of fun (_ : Fin 1) (_ : Fin 1) =>
        (l.map fun q => (q.b0 * s ^ 2 + q.b1 * s + q.b2) / (q.a0 * s ^ 2 + q.a1 * s + q.a2)).prod := by
  obtain ⟨q0, t, rfl⟩ : ∃ q t, l = q :: t := by
    cases l with
    | nil => exact absurd rfl hl
    | cons q t => exact ⟨q, t, rfl⟩
  have hchain : ((q0 :: t).map biquadSys).IsChain (fun g h => h.L = g.Nt) := by
    rw [List.isChain_map]
    clear hl h0
    induction t generalizing q0 with
    | nil => exact List.isChain_singleton _
    | cons q t ih => exact List.isChain_cons_cons.mpr ⟨rfl, ih q⟩
  obtain ⟨g, hg⟩ := (C22_accepts ((q0 :: t).map biquadSys)).1.mpr ⟨biquadSys q0, rfl, rfl, hchain⟩
  have hgd := chain_ok_data _ _ hg
  obtain ⟨f, t', a, hf, hloop, hN, hL, hNt, -⟩ := hgd
  have hff : f = biquadSys q0 := by
    simp only [List.map_cons, List.cons.injEq] at hf
    exact hf.1.symm
  have hgL : g.L = 1 := by rw [hL, hff]; rfl
  have lastp : ∀ (N L : ℕ) (l : List (Sos K)) (a a' : ChainAcc K), a.p = 1 →
      chainLoop N L a (l.map biquadSys) = .ok a' → a'.p = 1 := by
    intro N L l
    induction l with
    | nil =>
      intro a a' hp h
      cases h
      exact hp
    | cons q l ih =>
      intro a a' hp h
      rw [List.map_cons, chainLoop] at h
      cases hs : chainStep N L a (biquadSys q) with
      | error e => rw [hs] at h; cases h
      | ok b =>
        rw [hs] at h
        refine ih b a' ?_ h
        rw [(chainStep_ok hs).2.2.1]
        rfl
  have hgNt : g.Nt = 1 := by
    rw [hNt]
    refine lastp _ _ _ _ _ ?_ hloop
    rw [hff]
    rfl
  have hgN : g.N = 2 * (q0 :: t).length := by
    rw [hN]
    have : ∀ l : List (Sos K), total Sys.N (l.map biquadSys) = 2 * l.length := by
      intro l
      induction l with
      | nil => rfl
      | cons q l ih => rw [List.map_cons, total_cons, ih, List.length_cons]; simp only [biquadSys]; omega
    exact this _
  refine ⟨toABCD g, ?_, hgN, ?_⟩
  · unfold sos2abcd
    rw [mapM_biquad]
    show (chain _ >>= fun g => Except.ok (toABCD g)) = _
    rw [hg]
    rfl
  intro s hs
  have hdet : ∀ f ∈ (q0 :: t).map biquadSys,
      (s • (1 : Matrix (Fin f.N) (Fin f.N) K) - toM f.N f.N f.A).det ≠ 0 := by
    intro f hf
    obtain ⟨q, hq, rfl⟩ := List.mem_map.mp hf
    exact (regular_iff_det _ _ _).mp (biquad_regular q (h0 q hq) s (hs q hq))
  have hgdet := (C22_transfer_function_partial _ _ hg s hdet).1
  have hreg := (regular_iff_det _ _ _).mpr hgdet
  have hregS : Regular (toABCD g).sys.N (toABCD g).sys.A s := hreg
  refine ⟨hgdet, ?_⟩
  have hcas : ∀ (l : List (Sos K)) (u y : ℕ → K), l ≠ [] → (∀ q ∈ l, q.a0 ≠ 0) →
      (∀ q ∈ l, q.a0 * s ^ 2 + q.a1 * s + q.a2 ≠ 0) → Cascade (l.map biquadSys) s u y →
      y 0 = (l.map fun q => (q.b0 * s ^ 2 + q.b1 * s + q.b2) / (q.a0 * s ^ 2 + q.a1 * s + q.a2)).prod * u 0 := by
    intro l
    induction l with
    | nil => intro u y h; exact absurd rfl h
    | cons q l ih =>
      intro u y _ ha hb hc
      cases l with
      | nil =>
        rw [biquad_transfers q (ha q (by simp)) s (hb q (by simp)) u y hc]
        simp
      | cons q' l =>
        obtain ⟨v, h1, h2⟩ := hc
        rw [ih v y (by simp) (fun r hr => ha r (by simp [hr])) (fun r hr => hb r (by simp [hr])) h2,
          biquad_transfers q (ha q (by simp)) s (hb q (by simp)) u v h1]
        rw [List.map_cons (l := q' :: l), List.prod_cons]
        ring
  refine siso_tfm _ s _ hregS ?_
  intro y hy
  have hyg : Transfers g s (fun _ => 1) y := by
    obtain ⟨x, h1, h2⟩ := hy
    refine ⟨x, ?_, ?_⟩
    · rw [hgL]; exact h1
    · rw [hgL, hgNt]; exact h2
  have hval := hcas _ _ _ (by simp) h0 hs ((C22_chain_partial _ _ hg s _ _).mp hyg)
  rw [mul_one] at hval
  exact hval

example : ∀ q ∈ [(⟨1, 0, 2, 2, 1, 3⟩ : Sos ℚ), ⟨0, 1, 2, 1, 1, 1⟩], q.a0 * 1 ^ 2 + q.a1 * 1 + q.a2 ≠ 0 := by
  simp
  norm_num

end Cbadc.Analog
