import Mathlib.Data.Int.Range
import Mathlib.Analysis.SpecialFunctions.Pow.NNReal
import Verif.Model.Adaptive

/-!
# Training of the recursive adaptive filter (`src/cbadc/digital_estimator/adaptive_filter.py:634-880`)

As in `Verif.Model.Adaptive`, the field `M` of the filter is the number of channels of the coefficient array, one
more than the number of input channels (line 638).
-/

namespace Cbadc.Adaptive
open Finset

variable {𝕜 : Type*} [RCLike 𝕜]

/-- The first row of the slice `x[i:]` of an array with `n` rows; a negative `i` counts from the end
(`src/cbadc/digital_estimator/adaptive_filter.py:751`). -/
def sliceStart (n : ℕ) (i : ℤ) : ℕ := if 0 ≤ i then min i.toNat n else (n + i).toNat

/-- `_reshape_data_for_FIR_filter_training`, `src/cbadc/digital_estimator/adaptive_filter.py:731-755`.  For references
shorter than `K` samples the code builds arrays of at most `K - 1` rows, or raises; every caller then raises in
`batch`, which is modelled as an error here. -/
def Filter.reshapeIIR (f : Filter 𝕜) (s y : A2 𝕜) (delay : ℤ) : Res (A2 𝕜 × A2 𝕜) :=
  if y.c < f.K then .error .valueError
  else
    let start := sliceStart s.r (f.K + delay)
    let length := min (s.r - start) (y.c - f.K)
    .ok (⟨length, s.c + y.r, fun i j => if j < s.c then s.f (start + i) j else y.f (j - s.c) i⟩,
      ⟨y.r, length, fun l i => y.f l (f.K + i)⟩)

/-- An exact `np.linalg.lstsq` for one right hand side: rows, columns, matrix and right hand side to solution
(`src/cbadc/digital_estimator/adaptive_filter.py:374`). -/
abbrev Solver (𝕜 : Type*) := ℕ → ℕ → (ℕ → ℕ → 𝕜) → (ℕ → 𝕜) → ℕ → 𝕜

/-- When numpy's `lstsq` leaves the residuals `sol[1]` empty: dependent columns, or no more rows than columns
(`src/cbadc/digital_estimator/adaptive_filter.py:374,382`). -/
def NoResiduals (n p : ℕ) (X : ℕ → ℕ → 𝕜) : Prop :=
  n ≤ p ∨ ∃ c : ℕ → 𝕜, (∃ i < p, c i ≠ 0) ∧ ∀ b < n, ∑ i ∈ range p, X b i * c i = 0

open Classical in
/-- `np.linalg.norm(sol[1])`, `src/cbadc/digital_estimator/adaptive_filter.py:382,794`; the norm of an empty array
is 0. -/
noncomputable def residualNorm (n p L : ℕ) (X : ℕ → ℕ → 𝕜) (y : ℕ → ℕ → 𝕜) (sol : ℕ → ℕ → 𝕜) : ℝ :=
  if NoResiduals n p X then 0
  else Real.sqrt (∑ l ∈ range L, (∑ b ∈ range n, ‖(∑ i ∈ range p, X b i * sol l i) - y l b‖ ^ 2) ^ 2)

/-- `AdaptiveIIRFilter.lstsq` with an integer delay: the filter afterwards and the norm of what is returned,
`src/cbadc/digital_estimator/adaptive_filter.py:784-786` with lines 365-382.  The coefficient array takes its number of
channels from the data (line 376).  Simplified: references whose number differs from `L` are an error here. -/
noncomputable def Filter.iirFit (solve : Solver 𝕜) (f : Filter 𝕜) (s y : A2 𝕜) (delay : ℤ) : Res (Filter 𝕜 × ℝ) :=
  match f.reshapeIIR s y delay with
  | .error e => .error e
  | .ok (s', y') =>
    match f.prepare s' y' 0 with
    | .error e => .error e
    | .ok (x, z) =>
      if z.r ≠ f.L then .error .valueError
      else
        let p := x.m * f.K + 1
        let X := fun b i => star (flatten x.m f.K (x.f b) i)
        let sol := fun l => solve x.n p X (z.f l)
        .ok ({ f with
            M := x.m
            off := .flat fun l => sol l (x.m * f.K)
            h := fun l m k => sol l (m * f.K + k) },
          residualNorm x.n p f.L X z.f sol)

/-- The loss of a delay, `src/cbadc/digital_estimator/adaptive_filter.py:794-808`: the norm of the residuals or, with
`x_validate`, the reciprocal of the signal to noise ratio of its prediction (an oracle). -/
def lossOf {F : Type*} (score : Option (F → Res ℝ)) (g : F) (r : ℝ) : Res ℝ :=
  match score with
  | none => .ok r
  | some q => q g

/-- The loop over the delays, `src/cbadc/digital_estimator/adaptive_filter.py:791-811`: `best` holds `best_delay` and
`best_loss`.  Losses are real numbers (no `nan`). -/
noncomputable def searchLoop {F : Type*} (fit : ℤ → Res (F × ℝ)) (score : Option (F → Res ℝ)) :
    List ℤ → Option (ℤ × ℝ) → Res (Option (ℤ × ℝ))
  | [], best => .ok best
  | d :: ds, best =>
    match fit d with
    | .error e => .error e
    | .ok (g, r) =>
      match lossOf score g r with
      | .error e => .error e
      | .ok loss =>
        searchLoop fit score ds
          (match best with
          | none => some (d, loss)
          | some (_, b) => if loss < b then some (d, loss) else best)

/-- `AdaptiveIIRFilter.lstsq` with a sequence of delays, `src/cbadc/digital_estimator/adaptive_filter.py:788-819`. -/
noncomputable def searchDelay {F : Type*} (fit : ℤ → Res (F × ℝ)) (score : Option (F → Res ℝ)) :
    List ℤ → Res (F × ℝ)
  | [lo, hi] =>
    match searchLoop fit score (Int.range lo (hi + 1)) none with
    | .error e => .error e
    | .ok none => .error .valueError
    | .ok (some (d, _)) => fit d
  | _ => .error .valueError

/-- `AdaptiveIIRFilter.lms`, `src/cbadc/digital_estimator/adaptive_filter.py:821-853`, with `verbose=False`; `shuffle`
is the keyword argument, when given. -/
def Filter.iirLms (f : Filter 𝕜) (s y : A2 𝕜) (delay : ℤ) (size epochs : ℕ) (lr mom : ℝ) (shuffle : Option Bool) :
    Res (Filter 𝕜) :=
  match shuffle with
  | some _ => .error .valueError
  | none =>
    match f.reshapeIIR s y delay with
    | .error e => .error e
    | .ok (s', y') => f.lms s' y' size epochs lr mom 0 fun _ b => b

/-- `AdaptiveIIRFilter.rls`, `src/cbadc/digital_estimator/adaptive_filter.py:855-885`, with `verbose=False`. -/
noncomputable def Filter.iirRls (f : Filter 𝕜) (s y : A2 𝕜) (delay : ℤ) (epochs : ℕ) (delta lam : ℝ)
    (shuffle : Option Bool) : Res (Filter 𝕜) :=
  match shuffle with
  | some _ => .error .valueError
  | none =>
    match f.reshapeIIR s y delay with
    | .error e => .error e
    | .ok (s', y') => f.rls s' y' epochs delta lam 0 fun _ l => l

end Cbadc.Adaptive
