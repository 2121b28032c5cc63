import Mathlib.Analysis.SpecialFunctions.Trigonometric.Basic
import Mathlib.Data.Fintype.EquivFin
import Mathlib.Data.Fintype.Sum
import Mathlib.Data.Matrix.Block

/-! # Specification for modulated systems -/

namespace Cbadc.Modulator.Spec

open Matrix

/-- The quarter turn of quadrature pairs: the pairs are the entries `e (inl j)` and `e (inr j)` of a vector, the first of which
goes to the second one and the second one to minus the first one. -/
def quarterTurn {h N : ℕ} (e : Fin h ⊕ Fin h ≃ Fin N) : Matrix (Fin N) (Fin N) ℝ :=
  Matrix.reindex e e (Matrix.fromBlocks 0 (-1) 1 0)

/-- The rotation of quadrature pairs by an angle. -/
noncomputable def turn {h N : ℕ} (e : Fin h ⊕ Fin h ≃ Fin N) (phi : ℝ) : Matrix (Fin N) (Fin N) ℝ :=
  Real.cos phi • 1 + Real.sin phi • quarterTurn e

/-- The numbers `0, ..., 2h - 1` in pairs as the modulator takes them: number `j` in the list `0, h, 1, h + 1, ...` and the one
`h` places later (for `h = 1` the pair 0 1, for `h = 2` the pairs 0 1 and 2 3, for `h = 3` the pairs 0 4, 3 2 and 1 5). -/
def position (h k : ℕ) : ℕ := if k % 2 = 0 then k / 2 else h + k / 2

/-- these pairs as a bijection -/
noncomputable def pairs {h N : ℕ} (hN : N = 2 * h) : Fin h ⊕ Fin h ≃ Fin N :=
  Equiv.ofBijective (Sum.elim (fun j => ⟨position h j, by have := j.2; unfold position; split <;> omega⟩)
    (fun j => ⟨position h (j + h), by have := j.2; unfold position; split <;> omega⟩)) <| by
    rw [Fintype.bijective_iff_injective_and_card]
    refine ⟨?_, by simp only [Fintype.card_sum, Fintype.card_fin]; omega⟩
    rintro (⟨i, hi⟩ | ⟨i, hi⟩) (⟨j, hj⟩ | ⟨j, hj⟩) hij <;>
      simp only [Sum.elim_inl, Sum.elim_inr, Fin.mk.injEq, position] at hij <;>
      simp only [Sum.inl.injEq, Sum.inr.injEq, Fin.mk.injEq, reduceCtorEq] <;>
      split at hij <;> split at hij <;> omega

/-- The rotation of the neighbouring entries `2i` and `2i + 1` of a vector by an angle. -/
noncomputable def turnNeighbours (phi : ℝ) (x : ℕ → ℝ) (k : ℕ) : ℝ :=
  if k % 2 = 0 then Real.cos phi * x k - Real.sin phi * x (k + 1) else Real.sin phi * x (k - 1) + Real.cos phi * x k

end Cbadc.Modulator.Spec
