import Verif.Spec.SymbolicEquations
import Verif.Lemmas.Linear

/-! # Lemmas on symbolic state equations -/

namespace Cbadc.Analog
open Spec Set Finset

theorem mapM_row {α β : Type*} (f : α → Res β) (h : α → β) : ∀ (l : List α), (∀ a ∈ l, f a = .ok (h a)) → l.mapM f = .ok (l.map h) := by
  intro l
  induction l with
  | nil => intro _; rfl
  | cons a l ih =>
    intro hl
    rw [List.mapM_cons, hl a List.mem_cons_self, ih fun b hb => hl b (List.mem_cons_of_mem _ hb)]
    rfl

variable {K : Type*} [Field K]

theorem equations_ok (g : Sys K) (dim : ℤ) (i : Bool) (b : ℕ → K) (h0 : 0 < g.N)
    (hb : ∀ n < g.N, g.symbolicInput dim i n = .ok (b n)) :
    g.symbolicEquations dim i = .ok ((List.range g.N).map fun n => ⟨n + 1, (List.range g.N).map fun nn => (g.A n nn, nn + 1), b n⟩, g.N) := by
  have h : (List.range g.N).mapM (g.symbolicRow dim i) = .ok ((List.range g.N).map fun n =>
      (⟨n + 1, (List.range g.N).map fun nn => (g.A n nn, nn + 1), b n⟩ : SymEq K)) := by
    refine mapM_row _ _ _ fun n hn => ?_
    unfold Sys.symbolicRow
    rw [hb n (List.mem_range.mp hn)]
    rfl
  unfold Sys.symbolicEquations
  rw [h]
  obtain ⟨m, hm⟩ : ∃ m, g.N = m + 1 := ⟨g.N - 1, by omega⟩
  show (match g.N with
    | 0 => _
    | n + 1 => _) = _
  split
  · omega
  · rename_i k hk
    congr 2
    exact hk.symm

theorem equations_error (g : Sys K) (dim : ℤ) (i : Bool) (e : Exc) (h0 : 0 < g.N)
    (hb : ∀ n, g.symbolicInput dim i n = .error e) : g.symbolicEquations dim i = .error e := by
  obtain ⟨m, hm⟩ : ∃ m, g.N = m + 1 := ⟨g.N - 1, by omega⟩
  have h : (List.range g.N).mapM (g.symbolicRow dim i) = .error e := by
    rw [hm, List.range_succ_eq_map, List.mapM_cons]
    unfold Sys.symbolicRow
    rw [hb 0]
    rfl
  unfold Sys.symbolicEquations
  rw [h]
  rfl

theorem list_sum_range (f : ℕ → ℝ) (n : ℕ) : ((List.range n).map f).sum = ∑ c ∈ Finset.range n, f c := by
  induction n with
  | zero => simp
  | succ n ih => rw [List.range_succ, List.map_append, List.sum_append, ih, Finset.sum_range_succ]; simp

theorem solves_iff (N : ℕ) (A : ℕ → ℕ → ℝ) (b : ℕ → ℝ) (T : ℝ) (x : ℕ → ℝ → ℝ) (u : ℝ → ℝ) :
    SolvesSym T ((List.range N).map fun n => ⟨n + 1, (List.range N).map fun nn => (A n nn, nn + 1), b n⟩) x u ↔
      Driven N A b T (fun n => x (n + 1)) u := by
  have hr : ∀ n t, rhsValue ⟨n + 1, (List.range N).map fun nn => (A n nn, nn + 1), b n⟩ x u t =
      (∑ c ∈ Finset.range N, A n c * x (c + 1) t) + b n * u t := by
    intro n t
    unfold rhsValue
    rw [← list_sum_range, List.map_map]
    rfl
  constructor
  · intro h n hn
    have := h _ (List.mem_map.mpr ⟨n, List.mem_range.mpr hn, rfl⟩)
    refine ⟨this.1, fun t ht => ?_⟩
    rw [← hr]
    exact this.2 t ht
  · intro h e he
    obtain ⟨n, hn, rfl⟩ := List.mem_map.mp he
    refine ⟨(h n (List.mem_range.mp hn)).1, fun t ht => ?_⟩
    rw [hr]
    exact (h n (List.mem_range.mp hn)).2 t ht

theorem symCol_nat (cols l : ℕ) (h : l < cols) : symCol cols (l : ℤ) = .ok l := by
  unfold symCol
  rw [if_pos ⟨by omega, by omega⟩]
  rfl

end Cbadc.Analog
