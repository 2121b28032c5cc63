import Mathlib.Analysis.Complex.Basic
import Verif.Spec.AnalogSystem

/-! # Specification vocabulary for synthesised frontends -/

namespace Cbadc.Synthesis.Spec
open Analog

/-- a real matrix with complex entries (specification) -/
noncomputable def cm (A : ℕ → ℕ → ℝ) : ℕ → ℕ → ℂ := fun r c => (A r c : ℂ)

/-- a real system as a complex one, to speak about amplitudes at complex frequencies (specification) -/
noncomputable def cplx (g : Sys ℝ) : Sys ℂ where
  N := g.N
  L := g.L
  M := g.M
  Mt := g.Mt
  Nt := g.Nt
  A := cm g.A
  B := cm g.B
  CT := cm g.CT
  Gamma := g.Gamma.map cm
  GammaT := g.GammaT.map cm
  D := cm g.D
  Bt := cm g.Bt
  At := cm g.At

end Cbadc.Synthesis.Spec
