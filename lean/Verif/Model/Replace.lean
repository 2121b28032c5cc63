import Verif.Model.Circuit

/-!
# Assigning an element to an attribute of a sub-circuit (`src/cbadc/circuit/__init__.py:477-501`)
-/

namespace Cbadc.Circuit

variable {τ : Type} [DecidableEq τ] {K : Type*}

/-- `sub.name = e` for a circuit element `e`: `src/cbadc/circuit/__init__.py:477-495`.  A new name must be the instance name of the
element; an element assigned to a name in use takes that name, is connected to the terminals of the old element and takes its
place.  The keys of `_subckts` are the instance names of the parts.  The connections made before an exception is raised are not
modelled, only the exception. -/
def Sub.assign (nm : τ → String) (s : Sub τ K) (name : String) (e : Part τ K) : Res (Sub τ K) :=
  match s.parts.find? (fun p => p.inst = name) with
  | none => if name ≠ e.inst then .error .valueError else .ok { s with parts := s.parts ++ [e] }
  | some old =>
    match reconnect nm e old.terms s.wires with
    | .error x => .error x
    | .ok w => .ok ⟨s.parts.map (fun p => if p.inst = name then { e with inst := name } else p), w⟩

/-- `sub.name` for a name that is not an ordinary attribute: `src/cbadc/circuit/__init__.py:498-501`. -/
def Sub.attr (s : Sub τ K) (name : String) : Res (Part τ K) :=
  match s.parts.find? (fun p => p.inst = name) with
  | none => .error .attributeError
  | some e => .ok e

/-- The name of a terminal that was created without a name, after the running number of terminals:
`src/cbadc/circuit/__init__.py:54-58`. -/
def unnamed (id : ℕ) : String := toString id

end Cbadc.Circuit
