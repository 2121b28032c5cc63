import Verif.Spec.AnalogSystem

/-! # Specification vocabulary for combinations and realisations of analog systems -/

namespace Cbadc.Analog.Spec
open Finset

variable {K : Type*} [Field K]

/-- Horner value of a polynomial given by its coefficients, highest power first (specification) -/
def poly (c : List K) (s : K) : K := c.foldl (fun acc a => acc * s + a) 0

/-- amplitude vector after a system: its transfer function matrix applied to the input amplitudes
(specification; `transfer_function_matrix` is the API, `src/cbadc/analog_system/analog_system.py:507`) -/
noncomputable def through (s : K) (u : ℕ → K) (g : Sys K) : ℕ → K := fun r =>
  if h : r < g.Nt then (g.tfm s).mulVec (fun k => u k) ⟨r, h⟩ else 0

/-- right hand side of the state differential equation of one system (specification; a missing control matrix
contributes nothing) -/
def rhs (g : Sys K) (x u s : ℕ → K) (r : ℕ) : K :=
  (∑ c ∈ range g.N, g.A r c * x c) + (∑ c ∈ range g.L, g.B r c * u c) +
    match g.Gamma with
    | none => 0
    | some G => ∑ c ∈ range g.M, G r c * s c

/-- control observation of one system (specification) -/
def cObs (g : Sys K) (x u s : ℕ → K) (r : ℕ) : K :=
  (match g.GammaT with
    | none => 0
    | some G => ∑ c ∈ range g.N, G r c * x c) +
  (∑ c ∈ range g.L, g.Bt r c * u c) + ∑ c ∈ range g.M, g.At r c * s c

/-- output of one system (specification) -/
def outp (g : Sys K) (x u : ℕ → K) (r : ℕ) : K :=
  (∑ c ∈ range g.N, g.CT r c * x c) + ∑ c ∈ range g.L, g.D r c * u c

/-- what arrives behind a list of systems whose states are stored one after the other in `x`: each one is driven by
the output of the previous one (specification) -/
def feed : List (Sys K) → (ℕ → K) → (ℕ → K) → ℕ → K
  | [], _, u => u
  | g :: l, x, u => feed l (shift g.N x) (outp g x u)

end Cbadc.Analog.Spec
