import Mathlib.Data.Int.Basic
import Mathlib.Tactic.TypeStar

/-! Specification for the byte-stream properties C01-C04; independent of the model's codec. -/

namespace Cbadc.Spec

/-- The 0/1 vector a stored control vector stands for. -/
def bits {K : Type*} [Zero K] [LT K] [DecidableLT K] (M : ℕ) (s : List K) : List ℤ :=
  (s.take M).map fun v => if 0 < v then 1 else 0

/-- Number of usable bits of the storage word for `M` controls. -/
def capacity (M : ℕ) : ℕ :=
  if M ≤ 8 then 8 else if M ≤ 16 then 15 else if M ≤ 64 then 31 else 63

/-- A 0/1 vector with `M` entries. -/
def Binary (M : ℕ) (s : List ℤ) : Prop := s.length = M ∧ ∀ v ∈ s, v = 0 ∨ v = 1

end Cbadc.Spec
