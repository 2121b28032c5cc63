import Verif.Model.FilterCoefficients
import Verif.Model.Simulator

/-!
# State coordinates

What it means that two converters differ by the choice of the state variables only: the vocabulary of C151.
-/

namespace Cbadc.Coordinates

open Matrix Finset Cbadc.Analog Cbadc.Simulate Cbadc.Estimator

/-- the product of two arrays with inner dimension `n` -/
def mul {K : Type*} [Field K] (n : ℕ) (X Y : ℕ → ℕ → K) : ℕ → ℕ → K := fun i j => ∑ k ∈ range n, X i k * Y k j

/-- `S` and `R` are inverse to each other -/
def Inverse {K : Type*} [Field K] (n : ℕ) (S R : ℕ → ℕ → K) : Prop := ∀ i < n, ∀ j < n, mul n S R i j = if i = j then 1 else 0

/-- the analog system with the state variables `S x` in place of `x`, where `R` is the inverse of `S` -/
abbrev sys {K : Type*} [Field K] (S R : ℕ → ℕ → K) (g : Sys K) : Sys K :=
  { g with
    A := mul g.N (mul g.N S g.A) R
    B := mul g.N S g.B
    CT := mul g.N g.CT R
    Gamma := g.Gamma.map (mul g.N S)
    GammaT := g.GammaT.map fun X => mul g.N X R }

/-- `P` maps the states of `g` to those of `g'`, with the same inputs, controls and control observations; neither the numbers
of states need to agree nor does `P` have to be invertible -/
structure Maps (P : ℕ → ℕ → ℝ) (g g' : Sys ℝ) : Prop where
  L : g'.L = g.L
  M : g'.M = g.M
  Mt : g'.Mt = g.Mt
  A : ∀ i < g'.N, ∀ j < g.N, mul g'.N g'.A P i j = mul g.N P g.A i j
  B : ∀ i < g'.N, ∀ l < g.L, g'.B i l = mul g.N P g.B i l
  Gamma : ∀ G, g.Gamma = some G → ∃ G', g'.Gamma = some G' ∧ ∀ i < g'.N, ∀ m < g.M, G' i m = mul g.N P G i m
  GammaT : ∀ G, g.GammaT = some G → ∃ G', g'.GammaT = some G' ∧ ∀ i < g.Mt, ∀ j < g.N, mul g'.N G' P i j = G i j
  Bt : ∀ i < g.Mt, ∀ l < g.L, g'.Bt i l = g.Bt i l
  At : ∀ i < g.Mt, ∀ m < g.M, g'.At i m = g.At i m

/-- the filter coefficients for the state variables `S x` -/
def coeffs {K : Type*} [CommRing K] {N M L : ℕ} (S R : Matrix (Fin N) (Fin N) K) (c : Coeffs K N M L) : Coeffs K N M L :=
  ⟨S * c.Af * R, S * c.Ab * R, S * c.Bf, S * c.Bb, c.WT * R⟩

end Cbadc.Coordinates
