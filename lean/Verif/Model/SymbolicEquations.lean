import Verif.Model.AnalogSystem

/-! # Symbolic state equations (`AnalogSystem.symbolic_differential_equations`) -/

namespace Cbadc.Analog

variable {K : Type*} [Field K]

/-- One entry of the returned list, `Eq(x_of(t).diff(t), expr)`
(`src/cbadc/analog_system/analog_system.py:348-356`).  The function `x_{n}(t)` (line 273-274) is represented by
its number `n`, the expression by its summands: pairs of a matrix entry and a function number, and the factor of
the symbolic input.  Sympy's own simplifications of the expression (dropping zero summands, merging) are not
represented. -/
structure SymEq (K : Type*) where
  of : ℕ
  terms : List (K × ℕ)
  input : K

/-- Column index of a `sympy.Matrix` with `cols` columns: negative numbers count from the end, others out of
range raise `IndexError` (`src/cbadc/analog_system/analog_system.py:353,355`). -/
def symCol (cols : ℕ) (dim : ℤ) : Res ℕ :=
  if 0 ≤ dim ∧ dim < cols then .ok dim.toNat
  else if -(cols : ℤ) ≤ dim ∧ dim < 0 then .ok (dim + cols).toNat
  else .error .indexError

/-- The factor of the input in row `n`, `src/cbadc/analog_system/analog_system.py:352-355`; without `Gamma`
nothing is added for a control signal. -/
def Sys.symbolicInput (g : Sys K) (dim : ℤ) (inputSignal : Bool) (n : ℕ) : Res K :=
  if inputSignal then
    match symCol g.L dim with
    | .error e => .error e
    | .ok c => .ok (g.B n c)
  else
    match g.Gamma with
    | some G =>
      match symCol g.M dim with
      | .error e => .error e
      | .ok c => .ok (G n c)
    | none => .ok 0

/-- The body of the loop over `n`, `src/cbadc/analog_system/analog_system.py:349-356`. -/
def Sys.symbolicRow (g : Sys K) (dim : ℤ) (inputSignal : Bool) (n : ℕ) : Res (SymEq K) := do
  let b ← g.symbolicInput dim inputSignal n
  .ok ⟨n + 1, (List.range g.N).map fun nn => (g.A n nn, nn + 1), b⟩

/-- `AnalogSystem.symbolic_differential_equations`, `src/cbadc/analog_system/analog_system.py:322-357`.  The
second component is the number of the returned function, `self._symbolic_x(n + 1)` with the loop variable as the
loop left it (line 357; without states the variable is unbound: `UnboundLocalError`, a `NameError`). -/
def Sys.symbolicEquations (g : Sys K) (dim : ℤ) (inputSignal : Bool) : Res (List (SymEq K) × ℕ) := do
  let eqs ← (List.range g.N).mapM (g.symbolicRow dim inputSignal)
  match g.N with
  | 0 => .error .nameError
  | n + 1 => .ok (eqs, n + 1)

end Cbadc.Analog
