import Mathlib.Tactic.Ring
import Mathlib.Tactic.LinearCombination
import Mathlib.Algebra.BigOperators.Intervals
import Mathlib.LinearAlgebra.Matrix.ToLinearEquiv
import Verif.Spec.AnalogSystem
import Verif.Model.Topology
import Verif.Props.AnalogSystem

/-! # Lemmas about chains and stacks of analog systems -/

namespace Cbadc.Analog
open Finset Spec

variable {K : Type*} [Field K]

theorem mm_sum (p n : ℕ) (B C : ℕ → ℕ → K) (x : ℕ → K) (r : ℕ) :
    ∑ c ∈ range n, mm p B C r c * x c = ∑ k ∈ range p, B r k * ∑ c ∈ range n, C k c * x c := by
  unfold mm
  simp_rw [Finset.sum_mul, Finset.mul_sum]
  rw [Finset.sum_comm]
  simp_rw [mul_assoc]

omit [Field K] in
theorem blockSet_in {r0 r1 c0 c1 : ℕ} {X Y : ℕ → ℕ → K} {r c : ℕ} (h : r0 ≤ r) (h1 : r < r1) (h2 : c0 ≤ c)
    (h3 : c < c1) : blockSet r0 r1 c0 c1 X Y r c = Y (r - r0) (c - c0) := if_pos ⟨h, h1, h2, h3⟩

omit [Field K] in
theorem blockSet_out {r0 r1 c0 c1 : ℕ} {X Y : ℕ → ℕ → K} {r c : ℕ} (h : ¬ (r0 ≤ r ∧ r < r1 ∧ c0 ≤ c ∧ c < c1)) :
    blockSet r0 r1 c0 c1 X Y r c = X r c := if_neg h

/-- a sum over a prefix plus a shifted rest -/
theorem sum_split (n m : ℕ) (f : ℕ → K) :
    ∑ c ∈ range (n + m), f c = (∑ c ∈ range n, f c) + ∑ c ∈ range m, f (n + c) := Finset.sum_range_add f n m

/-- structural invariant of the chain loop: nothing processed so far depends on later states -/
structure Inv (N k : ℕ) (a : ChainAcc K) : Prop where
  hA : ∀ r < a.n, ∀ c, a.n ≤ c → c < N → a.A r c = 0
  hC : ∀ j c, k ≤ c → c < N → a.CT j c = 0

/-- input-output relation of the partially built chain -/
def AccT (L : ℕ) (a : ChainAcc K) (s : K) (u y : ℕ → K) : Prop :=
  ∃ x, StateEq a.n L a.A a.B s u x ∧ OutEq a.p a.n L a.CT a.D u x y

theorem chainStep_ok {N L : ℕ} {a a' : ChainAcc K} {g : Sys K} (h : chainStep N L a g = .ok a') :
    g.L = a.p ∧ a'.n = a.n + g.N ∧ a'.p = g.Nt ∧
    a'.A = blockSet a.n (a.n + g.N) a.n (a.n + g.N) (blockSet a.n (a.n + g.N) 0 N a.A (mm a.p g.B a.CT)) g.A ∧
    a'.B = blockSet a.n (a.n + g.N) 0 L a.B (mm a.p g.B a.D) ∧
    a'.D = mm a.p g.D a.D ∧
    a'.CT = blockSet 0 g.Nt a.n (a.n + g.N) (mm a.p g.D a.CT) g.CT := by
  unfold chainStep at h
  split_ifs at h with h1
  cases h
  exact ⟨not_not.mp h1, rfl, rfl, rfl, rfl, rfl, rfl⟩

section step
variable {N L : ℕ} {a a' : ChainAcc K} {g : Sys K} (h : chainStep N L a g = .ok a')
  (hN : a.n + g.N ≤ N) (hI : Inv N (a.n + g.N) a)

include h hN hI

omit hN in
theorem step_inv : Inv N a'.n a' := by
  obtain ⟨hp, hn, hp', hA, hB, hD, hC⟩ := chainStep_ok h
  rw [hn]
  constructor
  · rw [hn, hA]
    intro r hr c hc hcN
    rw [blockSet_out (by omega)]
    by_cases hra : a.n ≤ r
    · rw [blockSet_in hra hr (by omega) hcN]
      unfold mm
      apply Finset.sum_eq_zero
      intro k _
      rw [hI.hC k (c - 0) (by omega) (by omega), mul_zero]
    · rw [blockSet_out (by omega), hI.hA r (by omega) c (by omega) hcN]
  · rw [hC]
    intro j c hc hcN
    rw [blockSet_out (by omega)]
    unfold mm
    apply Finset.sum_eq_zero
    intro k _
    rw [hI.hC k c hc hcN, mul_zero]

/-- rows of the part built before: unchanged -/
theorem step_old (x : ℕ → K) (r : ℕ) (hr : r < a.n) :
    ∑ c ∈ range a'.n, a'.A r c * x c = ∑ c ∈ range a.n, a.A r c * x c := by
  obtain ⟨hp, hn, hp', hA, hB, hD, hC⟩ := chainStep_ok h
  rw [hn, sum_split, hA]
  have e1 : ∑ c ∈ range g.N, blockSet a.n (a.n + g.N) a.n (a.n + g.N)
      (blockSet a.n (a.n + g.N) 0 N a.A (mm a.p g.B a.CT)) g.A r (a.n + c) * x (a.n + c) = 0 := by
    apply Finset.sum_eq_zero
    intro c hc
    rw [mem_range] at hc
    rw [blockSet_out (by omega), blockSet_out (by omega), hI.hA r hr _ (by omega) (by omega), zero_mul]
  rw [e1, add_zero]
  apply Finset.sum_congr rfl
  intro c _
  rw [blockSet_out (by omega), blockSet_out (by omega)]

omit hI in
/-- rows of the new part -/
theorem step_new (x : ℕ → K) (r : ℕ) (hr : r < g.N) :
    ∑ c ∈ range a'.n, a'.A (a.n + r) c * x c =
      (∑ k ∈ range g.L, g.B r k * ∑ c ∈ range a.n, a.CT k c * x c) +
        ∑ c ∈ range g.N, g.A r c * shift a.n x c := by
  obtain ⟨hp, hn, hp', hA, hB, hD, hC⟩ := chainStep_ok h
  rw [hn, sum_split, hA, hp, ← mm_sum]
  congr 1
  · apply Finset.sum_congr rfl
    intro c hc
    rw [mem_range] at hc
    rw [blockSet_out (by omega), blockSet_in (by omega) (by omega) (by omega) (by omega)]
    simp
  · apply Finset.sum_congr rfl
    intro c hc
    rw [mem_range] at hc
    rw [blockSet_in (by omega) (by omega) (by omega) (by omega)]
    simp [shift]

omit hN hI in
theorem step_B_old (u : ℕ → K) (r : ℕ) (hr : r < a.n) :
    ∑ c ∈ range L, a'.B r c * u c = ∑ c ∈ range L, a.B r c * u c := by
  obtain ⟨hp, hn, hp', hA, hB, hD, hC⟩ := chainStep_ok h
  rw [hB]
  apply Finset.sum_congr rfl
  intro c _
  rw [blockSet_out (by omega)]

omit hN hI in
theorem step_B_new (u : ℕ → K) (r : ℕ) (hr : r < g.N) :
    ∑ c ∈ range L, a'.B (a.n + r) c * u c = ∑ k ∈ range g.L, g.B r k * ∑ c ∈ range L, a.D k c * u c := by
  obtain ⟨hp, hn, hp', hA, hB, hD, hC⟩ := chainStep_ok h
  rw [hB, hp, ← mm_sum]
  apply Finset.sum_congr rfl
  intro c hc
  rw [mem_range] at hc
  rw [blockSet_in (by omega) (by omega) (by omega) (by omega)]
  simp

omit hN hI in
theorem step_C (x : ℕ → K) (j : ℕ) (hj : j < g.Nt) :
    ∑ c ∈ range a'.n, a'.CT j c * x c =
      (∑ k ∈ range g.L, g.D j k * ∑ c ∈ range a.n, a.CT k c * x c) +
        ∑ c ∈ range g.N, g.CT j c * shift a.n x c := by
  obtain ⟨hp, hn, hp', hA, hB, hD, hC⟩ := chainStep_ok h
  rw [hn, sum_split, hC, hp, ← mm_sum]
  congr 1
  · apply Finset.sum_congr rfl
    intro c hc
    rw [mem_range] at hc
    rw [blockSet_out (by omega)]
  · apply Finset.sum_congr rfl
    intro c hc
    rw [mem_range] at hc
    rw [blockSet_in (by omega) (by omega) (by omega) (by omega)]
    simp [shift]

omit hN hI in
theorem step_D (u : ℕ → K) (j : ℕ) :
    ∑ c ∈ range L, a'.D j c * u c = ∑ k ∈ range g.L, g.D j k * ∑ c ∈ range L, a.D k c * u c := by
  obtain ⟨hp, hn, hp', hA, hB, hD, hC⟩ := chainStep_ok h
  rw [hD, hp, ← mm_sum]

theorem step_T (s : K) (u y : ℕ → K) :
    AccT L a' s u y ↔ ∃ v, AccT L a s u v ∧ Transfers g s v y := by
  obtain ⟨hp, hn, hp', -⟩ := chainStep_ok h
  have dist : ∀ (F : ℕ → ℕ → K) (r : ℕ) (x : ℕ → K),
      (∑ k ∈ range g.L, F r k * ∑ c ∈ range a.n, a.CT k c * x c) +
        (∑ k ∈ range g.L, F r k * ∑ c ∈ range L, a.D k c * u c) =
      ∑ k ∈ range g.L, F r k * ((∑ c ∈ range a.n, a.CT k c * x c) + ∑ c ∈ range L, a.D k c * u c) := by
    intro F r x
    rw [← Finset.sum_add_distrib]
    simp_rw [mul_add]
  constructor
  · rintro ⟨x, hS, hO⟩
    refine ⟨fun j => (∑ c ∈ range a.n, a.CT j c * x c) + ∑ c ∈ range L, a.D j c * u c,
      ⟨x, ?_, fun _ _ => rfl⟩, shift a.n x, ?_, ?_⟩
    · intro r hr
      have := hS r (by omega)
      rw [step_old h hN hI x r hr, step_B_old h u r hr] at this
      exact this
    · intro r hr
      have := hS (a.n + r) (by omega)
      rw [step_new h hN x r hr, step_B_new h u r hr] at this
      rw [← dist, shift, this]
      ring
    · intro j hj
      have := hO j (by omega)
      rw [step_C h x j hj, step_D h u j] at this
      rw [← dist, this]
      ring
  · rintro ⟨v, ⟨x1, hS1, hO1⟩, x2, hS2, hO2⟩
    have ev : ∀ k < g.L, v k = (∑ c ∈ range a.n, a.CT k c * x1 c) + ∑ c ∈ range L, a.D k c * u c :=
      fun k hk => hO1 k (by omega)
    let x : ℕ → K := fun c => if c < a.n then x1 c else x2 (c - a.n)
    have ex1 : ∀ c < a.n, x c = x1 c := fun c hc => if_pos hc
    have ex2 : shift a.n x = x2 := by
      funext i
      simp only [shift, x]
      rw [if_neg (by omega)]
      congr 1
      omega
    have es : ∀ F : ℕ → ℕ → K, ∀ r, ∑ c ∈ range a.n, F r c * x c = ∑ c ∈ range a.n, F r c * x1 c := by
      intro F r
      apply Finset.sum_congr rfl
      intro c hc
      rw [ex1 c (mem_range.mp hc)]
    have esv : ∀ F : ℕ → ℕ → K, ∀ r, ∑ k ∈ range g.L, F r k * v k =
        (∑ k ∈ range g.L, F r k * ∑ c ∈ range a.n, a.CT k c * x c) +
        (∑ k ∈ range g.L, F r k * ∑ c ∈ range L, a.D k c * u c) := by
      intro F r
      rw [dist]
      apply Finset.sum_congr rfl
      intro k hk
      rw [ev k (mem_range.mp hk), es]
    refine ⟨x, ?_, ?_⟩
    · intro r hr
      by_cases hra : r < a.n
      · rw [step_old h hN hI x r hra, step_B_old h u r hra, ex1 r hra, es]
        exact hS1 r hra
      · obtain ⟨i, rfl⟩ := Nat.exists_eq_add_of_le (not_lt.mp hra)
        have hi : i < g.N := by omega
        rw [step_new h hN x i hi, step_B_new h u i hi, ex2]
        have := hS2 i hi
        rw [esv] at this
        have e3 : x (a.n + i) = x2 i := congrFun ex2 i
        rw [e3, this]
        ring
    · intro j hj
      rw [hp'] at hj
      rw [step_C h x j hj, step_D h u j, ex2]
      have := hO2 j hj
      rw [esv] at this
      rw [this]
      ring

theorem step_regular (s : K) (h1 : Regular a.n a.A s) (h2 : Regular g.N g.A s) : Regular a'.n a'.A s := by
  obtain ⟨hp, hn, hp', -⟩ := chainStep_ok h
  intro x hx
  have z1 : ∀ r < a.n, x r = 0 := by
    apply h1
    intro r hr
    rw [← step_old h hN hI x r hr]
    exact hx r (by omega)
  have z2 : ∀ r < g.N, shift a.n x r = 0 := by
    apply h2
    intro r hr
    have := hx (a.n + r) (by omega)
    rw [step_new h hN x r hr] at this
    rw [shift, this]
    have : ∑ k ∈ range g.L, g.B r k * ∑ c ∈ range a.n, a.CT k c * x c = 0 := by
      apply Finset.sum_eq_zero
      intro k _
      rw [Finset.sum_eq_zero, mul_zero]
      intro c hc
      rw [z1 c (mem_range.mp hc), mul_zero]
    rw [this, zero_add]
  intro r hr
  by_cases hra : r < a.n
  · exact z1 r hra
  · obtain ⟨i, rfl⟩ := Nat.exists_eq_add_of_le (not_lt.mp hra)
    exact z2 i (by omega)

end step

/-- a cascade started from an arbitrary relation -/
def CascadeFrom (R : (ℕ → K) → (ℕ → K) → Prop) (s : K) : List (Sys K) → (ℕ → K) → (ℕ → K) → Prop
  | [], u, y => R u y
  | g :: l, u, y => CascadeFrom (fun u y => ∃ v, R u v ∧ Transfers g s v y) s l u y

theorem cascadeFrom_congr {R R' : (ℕ → K) → (ℕ → K) → Prop} (s : K) (l : List (Sys K))
    (h : ∀ u y, R u y ↔ R' u y) (u y : ℕ → K) : CascadeFrom R s l u y ↔ CascadeFrom R' s l u y := by
  induction l generalizing R R' with
  | nil => exact h u y
  | cons g l ih =>
    apply ih
    intro u y
    simp only [h]

theorem cascadeFrom_cons (R : (ℕ → K) → (ℕ → K) → Prop) (s : K) (g : Sys K) (l : List (Sys K))
    (u y : ℕ → K) : CascadeFrom R s (g :: l) u y ↔ ∃ v, R u v ∧ Cascade (g :: l) s v y := by
  induction l generalizing g R with
  | nil => rfl
  | cons h l ih =>
    rw [CascadeFrom, ih]
    constructor
    · rintro ⟨w, ⟨v, h1, h2⟩, h3⟩
      exact ⟨v, h1, w, h2, h3⟩
    · rintro ⟨v, h1, w, h2, h3⟩
      exact ⟨w, ⟨v, h1, h2⟩, h3⟩

omit [Field K] in
theorem total_cons (f : Sys K → ℕ) (g : Sys K) (l : List (Sys K)) : total f (g :: l) = f g + total f l := by
  simp [total]

/-- the loop: invariant, input-output relation, size and number of outputs -/
theorem loop_T (N L : ℕ) (l : List (Sys K)) (a a' : ChainAcc K) (k : ℕ)
    (hk : ∀ g ∈ l.head?, k ≤ a.n + g.N)
    (hN : a.n + total Sys.N l ≤ N) (hI : Inv N k a) (h : chainLoop N L a l = .ok a') (s : K) :
    (∀ u y, AccT L a' s u y ↔ CascadeFrom (AccT L a s) s l u y) ∧
    a'.n = a.n + total Sys.N l ∧
    (Regular a.n a.A s → (∀ g ∈ l, Regular g.N g.A s) → Regular a'.n a'.A s) := by
  induction l generalizing a k with
  | nil =>
    simp only [chainLoop, Except.ok.injEq] at h
    subst h
    exact ⟨fun _ _ => Iff.rfl, by simp [total], fun h _ => h⟩
  | cons g l ih =>
    rw [chainLoop] at h
    cases hs : chainStep N L a g with
    | error e => rw [hs] at h; cases h
    | ok b =>
      rw [hs] at h
      dsimp only at h
      rw [total_cons] at hN
      have hk' := hk g (by simp)
      have hI' : Inv N (a.n + g.N) a := ⟨hI.hA, fun j c hc => hI.hC j c (le_trans hk' hc)⟩
      have hgN : a.n + g.N ≤ N := by omega
      obtain ⟨-, hn, -⟩ := chainStep_ok hs
      obtain ⟨i1, i2, i3⟩ := ih b b.n (fun g' _ => by omega) (by omega) (step_inv hs hI') h
      refine ⟨?_, by rw [total_cons]; omega, ?_⟩
      · intro u y
        rw [i1, CascadeFrom]
        exact cascadeFrom_congr s l (fun u y => step_T hs hgN hI' s u y) u y
      · intro h1 h2
        exact i3 (step_regular hs hgN hI' s h1 (h2 g (by simp))) (fun g' hg' => h2 g' (by simp [hg']))

/-- when the loop succeeds -/
theorem loop_ok (N L : ℕ) (l : List (Sys K)) (a : ChainAcc K) :
    (∃ a', chainLoop N L a l = .ok a') ↔
      (∀ g ∈ l.head?, g.L = a.p) ∧ l.IsChain (fun g h => h.L = g.Nt) := by
  induction l generalizing a with
  | nil => simp [chainLoop]
  | cons g l ih =>
    rw [chainLoop]
    by_cases hg : g.L = a.p
    · obtain ⟨b, hb⟩ : ∃ b, chainStep N L a g = .ok b := by
        unfold chainStep
        rw [if_neg (by simpa using hg)]
        exact ⟨_, rfl⟩
      rw [hb]
      dsimp only
      rw [ih]
      obtain ⟨-, -, hp, -⟩ := chainStep_ok hb
      cases l with
      | nil => simp [hg]
      | cons h l => simp [hg, hp, List.isChain_cons_cons]
    · have : chainStep N L a g = .error .valueError := by
        unfold chainStep
        rw [if_pos hg]
      rw [this]
      simp [hg]

theorem loop_err (N L : ℕ) (l : List (Sys K)) (a : ChainAcc K) (e : Exc)
    (h : chainLoop N L a l = .error e) : e = .valueError := by
  induction l generalizing a with
  | nil => cases h
  | cons g l ih =>
    rw [chainLoop] at h
    unfold chainStep at h
    split_ifs at h with hg
    · dsimp only at h
      cases h
      rfl
    · exact ih _ h

/-! ### transfer matrices -/

theorem regular_iff_det (n : ℕ) (A : ℕ → ℕ → K) (s : K) :
    Regular n A s ↔ (s • (1 : Matrix (Fin n) (Fin n) K) - toM n n A).det ≠ 0 := by
  have key : ∀ (v : Fin n → K) (x : ℕ → K), (∀ i : Fin n, x i = v i) →
      ((s • (1 : Matrix (Fin n) (Fin n) K) - toM n n A).mulVec v = 0 ↔
        ∀ r < n, s * x r = ∑ c ∈ range n, A r c * x c) := by
    intro v x hx
    rw [funext_iff]
    constructor
    · intro h r hr
      have := h ⟨r, hr⟩
      rw [Matrix.sub_mulVec, Matrix.smul_mulVec, Matrix.one_mulVec] at this
      simp only [Pi.sub_apply, Pi.smul_apply, smul_eq_mul, Pi.zero_apply, sub_eq_zero] at this
      rw [← hx] at this
      simp only at this
      rw [this, Matrix.mulVec, dotProduct, Finset.sum_range]
      apply Finset.sum_congr rfl
      intro c _
      rw [hx]
      rfl
    · intro h i
      rw [Matrix.sub_mulVec, Matrix.smul_mulVec, Matrix.one_mulVec]
      simp only [Pi.sub_apply, Pi.smul_apply, smul_eq_mul, Pi.zero_apply, sub_eq_zero]
      rw [← hx, h i i.isLt, Matrix.mulVec, dotProduct, Finset.sum_range]
      apply Finset.sum_congr rfl
      intro c _
      rw [hx]
      rfl
  rw [ne_eq, ← Matrix.exists_mulVec_eq_zero_iff]
  constructor
  · rintro h ⟨v, hv, hz⟩
    apply hv
    funext i
    have := h (fun k => if hk : k < n then v ⟨k, hk⟩ else 0)
      ((key v _ (by intro i; simp)).mp hz) i i.isLt
    simpa using this
  · intro h x hx r hr
    by_contra hne
    apply h
    refine ⟨fun i => x i, ?_, (key _ x (fun _ => rfl)).mpr hx⟩
    intro h0
    exact hne (congrFun h0 ⟨r, hr⟩)

theorem toM_mulVec (r c : ℕ) (A : ℕ → ℕ → K) (u : ℕ → K) (i : Fin r) :
    (toM r c A).mulVec (fun k : Fin c => u k) i = ∑ k ∈ range c, A i k * u k := by
  rw [Matrix.mulVec, dotProduct, Finset.sum_range]
  rfl

/-- away from poles the relation is the graph of the transfer function matrix -/
theorem transfers_iff (g : Sys K) (s : K) (h : Regular g.N g.A s) (u y : ℕ → K) :
    Transfers g s u y ↔ ∀ i : Fin g.Nt, y i = (g.tfm s).mulVec (fun k => u k) i := by
  have hdet := (regular_iff_det _ _ _).mp h
  set P := s • (1 : Matrix (Fin g.N) (Fin g.N) K) - toM g.N g.N g.A with hP
  have hu : IsUnit P.det := isUnit_iff_ne_zero.mpr hdet
  set ub : Fin g.L → K := fun k => u k
  set x0 : Fin g.N → K := (g.atf s).mulVec ub with hx0
  -- state equation in matrix form
  have hS : ∀ x : ℕ → K, StateEq g.N g.L g.A g.B s u x ↔
      P.mulVec (fun i => x i) = (toM g.N g.L g.B).mulVec ub := by
    intro x
    rw [funext_iff]
    constructor
    · intro h i
      rw [toM_mulVec, hP, Matrix.sub_mulVec, Matrix.smul_mulVec, Matrix.one_mulVec, Pi.sub_apply,
        toM_mulVec, Pi.smul_apply, smul_eq_mul, h i i.isLt]
      ring
    · intro h r hr
      have := h ⟨r, hr⟩
      rw [toM_mulVec, hP, Matrix.sub_mulVec, Matrix.smul_mulVec, Matrix.one_mulVec, Pi.sub_apply,
        toM_mulVec, Pi.smul_apply, smul_eq_mul] at this
      simp only at this
      linear_combination this
  have hsol : ∀ v : Fin g.N → K, P.mulVec v = (toM g.N g.L g.B).mulVec ub ↔ v = x0 := by
    intro v
    constructor
    · intro h
      rw [hx0, Sys.atf, ← hP, ← Matrix.mulVec_mulVec, ← h, Matrix.mulVec_mulVec,
        Matrix.nonsing_inv_mul _ hu, Matrix.one_mulVec]
    · rintro rfl
      rw [hx0, Sys.atf, ← hP, Matrix.mulVec_mulVec, ← Matrix.mul_assoc, Matrix.mul_nonsing_inv _ hu,
        Matrix.one_mul]
  have hout : ∀ i, (g.tfm s).mulVec ub i =
      (∑ c ∈ range g.L, g.D i c * u c) + (toM g.Nt g.N g.CT).mulVec x0 i := by
    intro i
    rw [Sys.tfm, Matrix.add_mulVec, Pi.add_apply, ← Matrix.mulVec_mulVec, toM_mulVec]
  constructor
  · rintro ⟨x, h1, h2⟩ i
    have e := (hsol _).mp ((hS x).mp h1)
    rw [hout, ← e, toM_mulVec, h2 i i.isLt]
    ring
  · intro hy
    obtain ⟨x, e⟩ : ∃ x : ℕ → K, (fun i : Fin g.N => x i) = x0 :=
      ⟨fun k => if hk : k < g.N then x0 ⟨k, hk⟩ else 0, by funext i; simp⟩
    refine ⟨x, (hS _).mpr ((hsol _).mpr e), ?_⟩
    intro r hr
    have := hy ⟨r, hr⟩
    rw [hout, ← e, toM_mulVec] at this
    rw [this]
    ring

end Cbadc.Analog
