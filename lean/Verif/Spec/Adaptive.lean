import Mathlib.Analysis.RCLike.Basic
import Mathlib.Algebra.BigOperators.Intervals

/-!
# Specification of adaptive filtering
-/

namespace Cbadc.Adaptive
open Finset

variable {𝕜 : Type*} [RCLike 𝕜]

/-- Output of an FIR filter with coefficients `h` and offset `o` for one window `x` of `M` channels and `K` taps:
the correlation of the window with the coefficients. -/
def output (M K : ℕ) (h : ℕ → ℕ → 𝕜) (o : 𝕜) (x : ℕ → ℕ → 𝕜) : 𝕜 :=
  ∑ m ∈ range M, ∑ k ∈ range K, star (h m k) * x m k + star o

/-- Mean square error of a filter over `n` windows `x b` with references `y b`. -/
noncomputable def meanSquare (M K n : ℕ) (x : ℕ → ℕ → ℕ → 𝕜) (y : ℕ → 𝕜) (h : ℕ → ℕ → 𝕜) (o : 𝕜) : ℝ :=
  (∑ b ∈ range n, ‖y b - output M K h o (x b)‖ ^ 2) / n

/-- The regularised, exponentially weighted least squares cost of a filter: `delta` times the squared norm of the
coefficients at the beginning, and for every sample `(lam, x, y)` everything so far is weighted by `lam` and the
squared error of the sample is added. -/
noncomputable def cost (M K : ℕ) (delta : ℝ) (data : List (ℝ × (ℕ → ℕ → 𝕜) × 𝕜)) (h : ℕ → ℕ → 𝕜) (o : 𝕜) : ℝ :=
  data.foldl (fun c d => d.1 * c + ‖d.2.2 - output M K h o d.2.1‖ ^ 2)
    (delta * (∑ m ∈ range M, ∑ k ∈ range K, ‖h m k‖ ^ 2 + ‖o‖ ^ 2))

/-- `(h, o)` is the only minimiser of the cost (coefficients outside the `M × K` array do not matter). -/
def Optimal (M K : ℕ) (delta : ℝ) (data : List (ℝ × (ℕ → ℕ → 𝕜) × 𝕜)) (h : ℕ → ℕ → 𝕜) (o : 𝕜) : Prop :=
  ∀ h' o', (∃ m < M, ∃ k < K, h' m k ≠ h m k) ∨ o' ≠ o →
    cost M K delta data h o < cost M K delta data h' o'

/-- Entry `i` of a sample with an appended one. -/
def entry (M K : ℕ) (x : ℕ → ℕ → 𝕜) (i : ℕ) : 𝕜 := if i < M * K then x (i / K) (i % K) else 1

/-- The regularised weighted correlation matrix of the data. -/
noncomputable def gram (M K : ℕ) (delta : ℝ) (data : List (ℝ × (ℕ → ℕ → 𝕜) × 𝕜)) : ℕ → ℕ → 𝕜 :=
  data.foldl (fun R d i j => (d.1 : 𝕜) * R i j + entry M K d.2.1 i * star (entry M K d.2.1 j))
    (fun i j => if i = j then (delta : 𝕜) else 0)

/-- The samples met in `n` epochs, when they are reordered by `order e` before epoch `e`. -/
def epochData {α : Type*} (order : ℕ → List α → List α) : ℕ → ℕ → List α → List α
  | 0, _, _ => []
  | n + 1, e, l => order e l ++ epochData order n (e + 1) (order e l)

/-- The first `n` sliding windows of a signal from sample `delay` on, with their references. -/
def windows (s y : ℕ → ℕ → 𝕜) (delay n : ℕ) : List ((ℕ → ℕ → 𝕜) × (ℕ → 𝕜)) :=
  (List.range n).map fun b => (fun m k => s (delay + b + k) m, fun l => y l b)

/-- The samples of a list with one weight, for the first reference. -/
def weigh (lam : ℝ) (l : List ((ℕ → ℕ → 𝕜) × (ℕ → 𝕜))) : List (ℝ × (ℕ → ℕ → 𝕜) × 𝕜) :=
  l.map fun d => (lam, d.1, d.2 0)

end Cbadc.Adaptive
