import Verif.Model.SigmaDelta

/-! # Specification vocabulary for imported sigma-delta modulators -/

namespace Cbadc.SigmaDelta.Spec
open Analog

variable {K : Type*} [Field K] [LinearOrder K]

/-- The frontend `fe` is the loop filter with the ABCD matrix `X` of order `N` (states, input and feedback scaled by the
rate `fs`, the feedback also by `dac`; quantiser input unscaled), with one control driven by the quantiser input
(specification). -/
structure Imports (N : ℕ) (X : ℕ → ℕ → K) (fs dac : K) (fe : MLFrontend K) : Prop where
  order : fe.sys.N = N
  inputs : fe.sys.L = 1
  controls : fe.M = 1 ∧ fe.sys.M = 1 ∧ fe.sys.Mt = 1
  states : ∀ r < N, ∀ c < N, fe.sys.A r c = X r c * fs
  input : ∀ r < N, fe.sys.B r 0 = X r N * fs
  feedback : ∃ G, fe.sys.Gamma = some G ∧ ∀ r < N, G r 0 = X r (N + 1) * fs * dac
  quantiser : ∃ G, fe.sys.GammaT = some G ∧ ∀ c < N, G 0 c = X N c
  feedthrough : fe.sys.Bt 0 0 = X N N
  direct : fe.sys.At 0 0 = X N (N + 1)

/-- As `Imports`, with one control per state that observes its state (specification). -/
structure ImportsLocal (N : ℕ) (X : ℕ → ℕ → K) (fs dac : K) (fe : MLFrontend K) : Prop where
  order : fe.sys.N = N
  inputs : fe.sys.L = 1
  controls : fe.M = N ∧ fe.sys.M = N ∧ fe.sys.Mt = N
  states : ∀ r < N, ∀ c < N, fe.sys.A r c = X r c * fs
  input : ∀ r < N, fe.sys.B r 0 = X r N * fs
  feedback : ∃ G, fe.sys.Gamma = some G ∧
    ∀ r < N, ∀ m < N, G r m = if m = r then X r (N + 1) * fs * dac else 0
  observes : ∃ G, fe.sys.GammaT = some G ∧ ∀ m < N, ∀ c < N, G m c = if m = c then 1 else 0

/-- A number large enough to be imported, or zero (specification). -/
def Clear (v : K) : Prop := v = 0 ∨ |v| > 1 / 10 ^ 8

/-- Loop filters that survive the import with a single control: no leaks (zero diagonal), no direct feedback into the
quantiser, the last state observed by the quantiser, no tiny coefficients (specification). -/
structure Plain (N : ℕ) (X : ℕ → ℕ → K) : Prop where
  hollow : ∀ r < N, X r r = 0
  states : ∀ r < N, ∀ c < N, Clear (X r c)
  input : ∀ r ≤ N, Clear (X r N)
  feedback : ∀ r < N, Clear (X r (N + 1))
  quantiser : ∀ c < N, Clear (X N c)
  last : X N (N - 1) ≠ 0
  direct : X N (N + 1) = 0

/-- The name of a coefficient: a letter and a number, as `b1` (specification). -/
def key1 (letter : Char) (i : ℕ) : List Char := letter :: Nat.toDigits 10 i

/-- The name of a coefficient between two states: a letter and two numbers, as `e21` (specification). -/
def key2 (letter : Char) (i j : ℕ) : List Char := letter :: (Nat.toDigits 10 i ++ Nat.toDigits 10 j)

/-- What a coefficient of the exported file contributes: its value when it is there and active (specification). -/
def active (d : Dict K) (n : Name) : K :=
  match d n with
  | some ⟨some v, true⟩ => v
  | _ => 0

/-- The frontend `fe` is the modulator described by the coefficients `d`: `b` couples the input into a state, `a` feeds the
decision back into it, `c` leads from a state to the next, `d` further forward and `e` backward; quantities with the index
after the last state belong to the quantiser (specification). -/
structure Describes (N : ℕ) (d : Dict K) (fs dac : K) (fe : MLFrontend K) : Prop where
  order : fe.sys.N = N
  inputs : fe.sys.L = 1
  controls : fe.M = 1 ∧ fe.sys.M = 1 ∧ fe.sys.Mt = 1
  states : ∀ r < N, ∀ c < N, fe.sys.A r c = ((if r = c + 1 then active d (key1 'c' (c + 1)) else 0) +
    active d (key2 'd' (c + 1) (r + 1)) + active d (key2 'e' (c + 1) (r + 1))) * fs
  input : ∀ r < N, fe.sys.B r 0 = active d (key1 'b' (r + 1)) * fs
  feedback : ∃ G, fe.sys.Gamma = some G ∧ ∀ r < N, G r 0 = active d (key1 'a' (r + 1)) * fs * dac
  quantiser : ∃ G, fe.sys.GammaT = some G ∧ ∀ c < N, G 0 c =
    (if c + 1 = N then active d (key1 'c' N) else active d (key2 'd' (c + 1) (N + 1)))
  feedthrough : fe.sys.Bt 0 0 = active d (key1 'b' (N + 1))

/-- Files in which every coefficient is active and has a value, each pair of states is connected by at most one
coefficient, there is no coefficient `c0` and the last `c` is there (specification). -/
structure Tidy (N : ℕ) (d : Dict K) : Prop where
  active : ∀ n c, d n = some c → c.active = true ∧ ∃ v, c.fixedValue = some v
  first : d (key1 'c' 0) = none
  last : d (key1 'c' N) ≠ none
  single : ∀ r < N, ∀ c < N, (d (key2 'd' (c + 1) (r + 1)) ≠ none →
      d (key2 'e' (c + 1) (r + 1)) = none ∧ (r = c + 1 → d (key1 'c' (c + 1)) = none)) ∧
    (d (key2 'e' (c + 1) (r + 1)) ≠ none → r = c + 1 → d (key1 'c' (c + 1)) = none)

end Cbadc.SigmaDelta.Spec
