import Mathlib.Algebra.Order.Ring.Defs
import Verif.Model.Basic
import Verif.Spec.Bytes

/-! Specification for C165: control signals and what an ended source of them does; independent of the codec. -/

namespace Cbadc.Replay

variable {K : Type*} {M : ℕ}

/-- the first `n` vectors of a control signal, as the iterator handed to the writer, ending with `fin` -/
def recording (s : ℕ → Fin M → K) (n : ℕ) (fin : Exc) : Trace (List K) :=
  ⟨(List.range n).map fun k => List.ofFn (s k), fin⟩

/-- vectors of zeros and ones that fit the storage word -/
def Storable [Zero K] [One K] (s : ℕ → Fin M → K) (n : ℕ) : Prop :=
  ∀ k < n, ∀ m, s k m = 0 ∨ (s k m = 1 ∧ m.1 < Spec.capacity M)

/-- a source that delivers `n` vectors, raises `e` once and is finished afterwards -/
def ending (s : ℕ → Fin M → K) (n : ℕ) (e : Exc) (k : ℕ) : Res (Fin M → K) :=
  if k < n then .ok (s k) else if k = n then .error e else .error .stopIteration

/-- a source that never ends, such as a running converter -/
def live (s : ℕ → Fin M → K) (k : ℕ) : Res (Fin M → K) := .ok (s k)

/-- what the FIR and IIR filters make of an exception of their source -/
def relayed (e : Exc) : Exc := if e = .runtimeError then .stopIteration else e

end Cbadc.Replay
