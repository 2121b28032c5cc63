import Mathlib.Algebra.Order.Ring.Abs

/-! # Specification of the peak search -/

namespace Cbadc.Spectrum.Spec

variable {K : Type*} [CommRing K] [LinearOrder K]

/-- `i` lies in the range removed around one of the earlier peaks: `dist` to the left, `width` to the right
(`src/cbadc/utilities.py:457-475`). -/
def Removed (width dist : ℤ) (ps : List ℕ) (i : ℕ) : Prop := ∃ p ∈ ps, (p : ℤ) - dist ≤ i ∧ (i : ℤ) < p + width

/-- `p` is the first index of largest magnitude of the spectrum `f` with the entries in `R` set to zero. -/
def IsPeak (size : ℕ) (f : ℕ → K) (R : ℕ → Prop) (p : ℕ) : Prop :=
  ∃ left : ℕ → K, (∀ i, R i → left i = 0) ∧ (∀ i, ¬ R i → left i = f i) ∧ p < size ∧
    ∀ i < size, |left i| ≤ |left p| ∧ (i < p → |left i| < |left p|)

/-- Every entry of `ps` is the peak of what the previous ones left. -/
def PeakSeq (size : ℕ) (f : ℕ → K) (width dist : ℤ) (ps : List ℕ) : Prop :=
  ∀ k p, ps[k]? = some p → IsPeak size f (Removed width dist (ps.take k)) p

end Cbadc.Spectrum.Spec
