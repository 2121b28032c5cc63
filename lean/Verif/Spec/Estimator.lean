import Mathlib.Data.Matrix.Mul
import Mathlib.Algebra.BigOperators.Group.Finset.Basic

/-!
Specification of the control-bounded estimate, used by C31-C39; independent of the model's buffers.

The estimate of sample `k` is `WT (m_b[k] - m_f[k])` with the backward sum
`m_b[k] = Σ_{i < nb} Ab^i Bb s̃[k+i]` and the forward sum `m_f[k] = Σ_{i < nf} Af^i Bf s̃[k-1-i]`.
-/

namespace Cbadc.Spec
open Matrix

variable {K : Type*} [CommRing K] {N M L : ℕ}

/-- The ±1-valued control sequence belonging to a 0/1 control stream, zero before the stream starts. -/
def ext (s : ℕ → Fin M → K) : ℤ → Fin M → K :=
  fun j => if 0 ≤ j then fun m => 2 * s j.toNat m - 1 else 0

/-- Past contribution to the estimate of sample `k` from `n` control vectors. -/
def past (WT : Matrix (Fin L) (Fin N) K) (Af : Matrix (Fin N) (Fin N) K)
    (Bf : Matrix (Fin N) (Fin M) K) (x : ℤ → Fin M → K) (k : ℤ) (n : ℕ) : Fin L → K :=
  ∑ i ∈ Finset.range n, (WT * (Af ^ i * Bf)) *ᵥ x (k - 1 - i)

/-- Future contribution to the estimate of sample `k` from `n` control vectors. -/
def future (WT : Matrix (Fin L) (Fin N) K) (Ab : Matrix (Fin N) (Fin N) K)
    (Bb : Matrix (Fin N) (Fin M) K) (x : ℤ → Fin M → K) (k : ℤ) (n : ℕ) : Fin L → K :=
  ∑ i ∈ Finset.range n, (WT * (Ab ^ i * Bb)) *ᵥ x (k + i)

end Cbadc.Spec
