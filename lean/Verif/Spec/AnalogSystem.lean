import Verif.Model.AnalogSystem

/-! # Specification vocabulary for analog systems -/

namespace Cbadc.Analog.Spec
open Finset

variable {K : Type*} [Field K]

/-- two-dimensional array of a given shape (specification) -/
def Shape (a : Arr K) (r c : ℕ) : Prop := ∃ f, a = .mat r c f

/-- an optional array, of the given shape if present (specification) -/
def OptShape (o : Option (Arr K)) (r c : ℕ) : Prop := ∀ a, o = some a → Shape a r c

/-- the eight arguments are the matrices of one system with dimensions `N, L, M, M_tilde, N_tilde`
(specification; `src/cbadc/analog_system/analog_system.py:60-110` documents the shapes).  `B` and `CT` may be
given as vectors for a single input / output; omitted `Gamma` or `Gamma_tildeT` mean `M = 0` / `M_tilde = 0`. -/
structure Consistent (A B CT : Arr K) (Gamma GammaT D Bt At : Option (Arr K)) (N L M Mt Nt : ℕ) : Prop where
  hA : Shape A N N
  hB : Shape B N L ∨ (L = 1 ∧ ∃ f, B = .vec N f)
  hC : Shape CT Nt N ∨ (Nt = 1 ∧ ∃ f, CT = .vec N f)
  hG : (Gamma = none ∧ M = 0) ∨ ∃ a, Gamma = some a ∧ Shape a N M
  hGT : (GammaT = none ∧ Mt = 0) ∨ ∃ a, GammaT = some a ∧ Shape a Mt N
  hD : OptShape D Nt L
  hBt : OptShape Bt Mt L
  hAt : OptShape At Mt M

/-- the state equation at complex frequency `s`: `s x = A x + B u` (specification) -/
def StateEq (n l : ℕ) (A B : ℕ → ℕ → K) (s : K) (u x : ℕ → K) : Prop :=
  ∀ r < n, s * x r = (∑ c ∈ range n, A r c * x c) + ∑ c ∈ range l, B r c * u c

/-- output `y = C x + D u` (specification) -/
def OutEq (p n l : ℕ) (C D : ℕ → ℕ → K) (u x y : ℕ → K) : Prop :=
  ∀ r < p, y r = (∑ c ∈ range n, C r c * x c) + ∑ c ∈ range l, D r c * u c

/-- `y` is an output amplitude of the system for input amplitude `u` at complex frequency `s` (specification) -/
def Transfers (g : Sys K) (s : K) (u y : ℕ → K) : Prop :=
  ∃ x, StateEq g.N g.L g.A g.B s u x ∧ OutEq g.Nt g.N g.L g.CT g.D u x y

/-- output of the first system is the input of the next, and so on (specification) -/
def Cascade : List (Sys K) → K → (ℕ → K) → (ℕ → K) → Prop
  | [], _, _, _ => False
  | [g], s, u, y => Transfers g s u y
  | g :: h :: l, s, u, y => ∃ v, Transfers g s u v ∧ Cascade (h :: l) s v y

/-- `s` is no pole: the state equation determines the state (specification) -/
def Regular (n : ℕ) (A : ℕ → ℕ → K) (s : K) : Prop :=
  ∀ x : ℕ → K, (∀ r < n, s * x r = ∑ c ∈ range n, A r c * x c) → ∀ r < n, x r = 0

/-- amplitude vector seen through an offset (specification) -/
def shift (k : ℕ) (x : ℕ → K) : ℕ → K := fun i => x (k + i)

end Cbadc.Analog.Spec
