import Mathlib.Data.List.Basic
import Verif.Model.Basic

/-!
# Checking and completing the connections of a hierarchy (`src/cbadc/circuit/__init__.py:601-670`)
-/

namespace Cbadc.Connections

/-- A terminal, an object of its own, and whether it is marked as hidden, `src/cbadc/circuit/__init__.py:42-64`. -/
structure Term where
  id : ℕ
  hidden : Bool
deriving DecidableEq, Repr

/-- A circuit element: its terminals, and for a sub-circuit the terminals that have a connection inside (the keys of
`_internal_connections`) and the elements inside, `src/cbadc/circuit/__init__.py:191-216,342-376`. -/
inductive Elem
  | device (terminals : List Term)
  | sub (terminals : List Term) (connected : List Term) (parts : List Elem)

/-- `get_terminals()`, `src/cbadc/circuit/__init__.py:260-262`. -/
def Elem.terminals : Elem → List Term
  | .device ts => ts
  | .sub ts _ _ => ts

/-- The terminals for which the check logs a warning, `src/cbadc/circuit/__init__.py:613,621`. -/
def loose (connected ts : List Term) : List Term := ts.filter fun t => !decide (t ∈ connected) && !t.hidden

mutual
/-- `check_connections()`, `src/cbadc/circuit/__init__.py:601-626`: the terminals for which a warning is logged, in order.
(A device has no such method.) -/
def check : Elem → List Term
  | .device _ => []
  | .sub ts connected parts => checkParts connected parts ++ loose connected ts
/-- The loop over the elements, `src/cbadc/circuit/__init__.py:609-619`. -/
def checkParts (connected : List Term) : List Elem → List Term
  | [] => []
  | e :: parts => check e ++ loose connected e.terminals ++ checkParts connected parts
end

/-- The inner loop of `connect_upstream`, `src/cbadc/circuit/__init__.py:665-668`: a new terminal is appended and then looked
up as `self.terminals[-1]`, but a sub-circuit has no attribute `terminals` (`src/cbadc/circuit/__init__.py:499-502`). -/
def upstreamTerminals (connected : List Term) : List Term → Res Unit
  | [] => .ok ()
  | t :: ts => if t ∈ connected then upstreamTerminals connected ts else .error .attributeError

mutual
/-- `connect_upstream()`, `src/cbadc/circuit/__init__.py:652-668`: nothing changes unless an exception is raised. -/
def upstream : Elem → Res Unit
  | .device _ => .ok ()
  | .sub _ connected parts => upstreamParts connected parts
/-- The loop over the elements, `src/cbadc/circuit/__init__.py:662-668`. -/
def upstreamParts (connected : List Term) : List Elem → Res Unit
  | [] => .ok ()
  | e :: parts =>
    match upstream e with
    | .error x => .error x
    | .ok () =>
      match upstreamTerminals connected e.terminals with
      | .error x => .error x
      | .ok () => upstreamParts connected parts
end

end Cbadc.Connections
