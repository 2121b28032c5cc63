import Verif.Model.FilterCoefficients
import Verif.Model.Simulator

/-!
# Numbering of inputs and controls

What it means that two converters differ by the numbering of their inputs and controls only: the vocabulary of C156.
-/

namespace Cbadc.Numbering

open Matrix Finset Cbadc.Analog Cbadc.Control Cbadc.Simulate Cbadc.Estimator

/-- a permutation of the first `n` numbers, for array indices -/
def up {n : ℕ} (σ : Equiv.Perm (Fin n)) (i : ℕ) : ℕ := if h : i < n then σ ⟨i, h⟩ else i

/-- the analog system whose `m`-th control is the `σ m`-th one of `g`, and whose `l`-th input is the `π l`-th one of `g` -/
abbrev sys {K : Type*} {M : ℕ} (σ : Equiv.Perm (Fin M)) (g : Sys K) (π : Equiv.Perm (Fin g.L)) : Sys K :=
  { g with
    B := fun i l => g.B i (up π l)
    D := fun i l => g.D i (up π l)
    Gamma := g.Gamma.map fun G i m => G i (up σ m)
    GammaT := g.GammaT.map fun G m i => G (up σ m) i
    Bt := fun m l => g.Bt (up σ m) (up π l)
    At := fun m k => g.At (up σ m) (up σ k) }

/-- the digital control with the same numbering -/
def control {K : Type*} {M : ℕ} (σ : Equiv.Perm (Fin M)) (d : DC K M) : DC K M := { d with ir := d.ir ∘ σ, offsets := d.offsets ∘ σ }

/-- the state of the digital control -/
def state {K : Type*} {M : ℕ} (σ : Equiv.Perm (Fin M)) (c : State K M) : State K M := ⟨c.s ∘ σ, c.cur ∘ σ, c.old ∘ σ⟩

/-- the simulator -/
abbrev config {M : ℕ} (σ : Equiv.Perm (Fin M)) (c : Cfg M) (π : Equiv.Perm (Fin c.sys.L)) : Cfg M :=
  ⟨sys σ c.sys π, control σ c.dc, fun k t l => c.input k t (up π l), c.hasInput⟩

/-- the state of the simulator -/
def st {M : ℕ} (σ : Equiv.Perm (Fin M)) (s : St M) : St M := ⟨s.ticks, s.t, s.x, state σ s.c⟩

/-- the filter coefficients -/
def coeffs {K : Type*} {N M L : ℕ} (σ : Equiv.Perm (Fin M)) (π : Equiv.Perm (Fin L)) (c : Coeffs K N M L) : Coeffs K N M L :=
  ⟨c.Af, c.Ab, c.Bf.submatrix id σ, c.Bb.submatrix id σ, c.WT.submatrix π id⟩

end Cbadc.Numbering
