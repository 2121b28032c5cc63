import Mathlib.Data.List.Induction
import Verif.Lemmas.Topology
import Verif.Spec.Topology

/-! # Lemmas about stacked systems and realisations -/

namespace Cbadc.Analog
open Finset Spec

variable {K : Type*} [Field K]

omit [Field K] in
theorem stackBlocks_above (R C : Sys K → ℕ) (F : Sys K → ℕ → ℕ → K) (l : List (Sys K)) (r0 c0 : ℕ)
    (X : ℕ → ℕ → K) (r c : ℕ) (h : r < r0) : stackBlocks R C F r0 c0 X l r c = X r c := by
  induction l generalizing r0 c0 X with
  | nil => rfl
  | cons g l ih => rw [stackBlocks, ih _ _ _ (by omega), blockSet_out (by omega)]

omit [Field K] in
theorem stackBlocks_row (R C : Sys K → ℕ) (F : Sys K → ℕ → ℕ → K) (l1 : List (Sys K)) (g : Sys K)
    (l2 : List (Sys K)) (r0 c0 : ℕ) (X : ℕ → ℕ → K) (i c : ℕ) (hi : i < R g) :
    stackBlocks R C F r0 c0 X (l1 ++ g :: l2) (r0 + total R l1 + i) c =
      if c0 + total C l1 ≤ c ∧ c < c0 + total C l1 + C g then F g i (c - (c0 + total C l1))
      else X (r0 + total R l1 + i) c := by
  induction l1 generalizing r0 c0 X with
  | nil =>
    simp only [List.nil_append, total, List.map_nil, List.sum_nil, add_zero]
    rw [stackBlocks, stackBlocks_above _ _ _ _ _ _ _ _ _ (by omega)]
    by_cases h : c0 ≤ c ∧ c < c0 + C g
    · rw [if_pos h, blockSet_in (by omega) (by omega) h.1 h.2]
      congr 1
      omega
    · rw [if_neg h, blockSet_out (by omega)]
  | cons h l1 ih =>
    rw [List.cons_append, stackBlocks, total_cons, total_cons]
    have e1 : r0 + (R h + total R l1) + i = (r0 + R h) + total R l1 + i := by omega
    have e2 : c0 + (C h + total C l1) = (c0 + C h) + total C l1 := by omega
    rw [e1, e2, ih, blockSet_out (by omega)]

omit [Field K] in
theorem total_append (f : Sys K → ℕ) (l1 l2 : List (Sys K)) :
    total f (l1 ++ l2) = total f l1 + total f l2 := by
  simp [total]

/-- a row of a stacked matrix times a vector -/
theorem stackMat_sum (R C : Sys K → ℕ) (F : Sys K → ℕ → ℕ → K) (l1 : List (Sys K)) (g : Sys K)
    (l2 : List (Sys K)) (i : ℕ) (hi : i < R g) (x : ℕ → K) :
    ∑ c ∈ range (total C (l1 ++ g :: l2)), stackMat R C F (l1 ++ g :: l2) (total R l1 + i) c * x c =
      ∑ c ∈ range (C g), F g i c * shift (total C l1) x c := by
  have row : ∀ c, stackMat R C F (l1 ++ g :: l2) (total R l1 + i) c =
      if total C l1 ≤ c ∧ c < total C l1 + C g then F g i (c - total C l1) else 0 := by
    intro c
    have := stackBlocks_row R C F l1 g l2 0 0 (fun _ _ => 0) i c hi
    simpa [stackMat] using this
  simp_rw [row]
  rw [total_append, total_cons, ← add_assoc, sum_split, sum_split]
  rw [Finset.sum_eq_zero (s := range (total C l1)), Finset.sum_eq_zero (s := range (total C l2)), zero_add,
    add_zero]
  · apply Finset.sum_congr rfl
    intro c hc
    rw [mem_range] at hc
    rw [if_pos (by omega)]
    simp [shift]
  · intro c _
    rw [if_neg (by omega), zero_mul]
  · intro c hc
    rw [mem_range] at hc
    rw [if_neg (by omega), zero_mul]

omit [Field K] in
/-- every index of a stacked dimension belongs to a part -/
theorem exists_part (R : Sys K → ℕ) (l : List (Sys K)) (r : ℕ) (h : r < total R l) :
    ∃ l1 g l2 i, l = l1 ++ g :: l2 ∧ i < R g ∧ r = total R l1 + i := by
  induction l generalizing r with
  | nil => simp [total] at h
  | cons g l ih =>
    rw [total_cons] at h
    by_cases hr : r < R g
    · exact ⟨[], g, l, r, rfl, hr, by simp [total]⟩
    · obtain ⟨l1, g', l2, i, h1, h2, h3⟩ := ih (r - R g) (by omega)
      refine ⟨g :: l1, g', l2, i, by rw [h1]; rfl, h2, ?_⟩
      rw [total_cons]
      omega

/-- the vectors of the parts can be put together -/
theorem assemble (l : List (Sys K)) (Q : List (Sys K) → Sys K → List (Sys K) → (ℕ → K) → Prop)
    (h : ∀ l1 g l2, l = l1 ++ g :: l2 → ∃ x, Q l1 g l2 x) :
    ∃ x : ℕ → K, ∀ l1 g l2, l = l1 ++ g :: l2 →
      ∃ z, Q l1 g l2 z ∧ ∀ i < g.N, x (total Sys.N l1 + i) = z i := by
  induction l generalizing Q with
  | nil => exact ⟨fun _ => 0, fun l1 g l2 e => by simp at e⟩
  | cons f l ih =>
    obtain ⟨x0, h0⟩ := h [] f l rfl
    obtain ⟨x', hx'⟩ := ih (fun l1 g l2 x => Q (f :: l1) g l2 x)
      (fun l1 g l2 e => h (f :: l1) g l2 (by rw [e]; rfl))
    refine ⟨fun i => if i < f.N then x0 i else x' (i - f.N), ?_⟩
    intro l1 g l2 e
    cases l1 with
    | nil =>
      simp only [List.nil_append, List.cons.injEq] at e
      obtain ⟨rfl, rfl⟩ := e
      refine ⟨x0, h0, fun i hi => ?_⟩
      simp [total, hi]
    | cons f' l1 =>
      simp only [List.cons_append, List.cons.injEq] at e
      obtain ⟨rfl, e⟩ := e
      obtain ⟨z, hz, hz'⟩ := hx' l1 g l2 e
      refine ⟨z, hz, fun i hi => ?_⟩
      rw [total_cons, ← hz' i hi]
      simp only
      rw [if_neg (by omega)]
      congr 1
      omega

/-- what `stack` returns -/
theorem stack_eq (l : List (Sys K)) (h : l ≠ []) : stack l = .ok
    ⟨total Sys.N l, total Sys.L l, total Sys.M l, total Sys.Mt l, total Sys.Nt l,
      stackMat Sys.N Sys.N Sys.A l, stackMat Sys.N Sys.L Sys.B l, stackMat Sys.Nt Sys.N Sys.CT l,
      some (stackMat Sys.N Sys.M (fun g => optBlock g.Gamma) l),
      some (stackMat Sys.Mt Sys.N (fun g => optBlock g.GammaT) l),
      stackMat Sys.Nt Sys.L Sys.D l, fun _ _ => 0, stackMat Sys.Mt Sys.M Sys.At l⟩ := by
  unfold stack
  rw [if_neg h]
  exact (C21_entries _ _ _ _ _ _ _ _ _ _ _ _ _).1

/-! ### polynomials -/

theorem poly_snoc (c : List K) (a s : K) : poly (c ++ [a]) s = poly c s * s + a := by
  simp [poly]

theorem poly_sum (c : List K) (s : K) :
    poly c s = ∑ i ∈ range c.length, c.reverse.getD i 0 * s ^ i := by
  induction c using List.reverseRecOn with
  | nil => simp [poly]
  | append_singleton c a ih =>
    rw [poly_snoc, ih, List.length_append, List.length_singleton, Finset.sum_range_succ', Finset.sum_mul,
      List.reverse_append]
    simp only [List.reverse_singleton, List.singleton_append, List.getD_cons_succ, List.getD_cons_zero, pow_zero,
      mul_one]
    congr 1
    apply Finset.sum_congr rfl
    intro i _
    ring

theorem poly_cons (a : K) (c : List K) (s : K) : poly (a :: c) s = a * s ^ c.length + poly c s := by
  induction c using List.reverseRecOn with
  | nil => simp [poly]
  | append_singleton c b ih =>
    rw [← List.cons_append, poly_snoc, poly_snoc, ih, List.length_append, List.length_singleton]
    ring

theorem poly_zipWith (k : K) (b a : List K) (s : K) (h : b.length = a.length) :
    poly (List.zipWith (fun bi ai => bi - k * ai) b a) s = poly b s - k * poly a s := by
  induction b generalizing a with
  | nil =>
    cases a with
    | nil => simp [poly]
    | cons _ _ => simp at h
  | cons x b ih =>
    cases a with
    | nil => simp at h
    | cons y a =>
      simp only [List.length_cons, add_left_inj] at h
      rw [List.zipWith_cons_cons, poly_cons, poly_cons, poly_cons, ih a h, List.length_zipWith, h, min_self]
      ring

end Cbadc.Analog
