import Verif.Model.TestBench

/-!
# The constructors of the test benches (`src/cbadc/circuit/testbench.py`) and the node list of the analog frontend

What the constructors of the frontends themselves do is not modelled here (C52, C53, C94, C119); a frontend is its
list of terminals.  `L` and `M` are the inputs and controls of the analog system of the frontend.
-/

namespace Cbadc.TestBench
open Circuit

/-- The four test benches, `src/cbadc/circuit/testbench.py:252,305,389,470`. -/
inductive Kind
  | stateSpace | opamp | ota | lc
deriving DecidableEq

/-- The names `pre0suf, …` of a group of terminals, `src/cbadc/circuit/testbench.py:84-87`. -/
def group (pre suf : String) (n : ℕ) : List String := (List.range n).map fun i => fmt pre i suf

/-- The terminals of a test bench with `n` input signals and `M` controls, in their order:
`src/cbadc/circuit/testbench.py:78-87`. -/
def tbPins (n M : ℕ) : List String :=
  ["0", "VDD", "CLK", "VCM"] ++ group "IN" "_P" n ++ group "IN" "_N" n ++ group "OUT" "_P" M ++ group "OUT" "_N" M

/-- The terminals of an analog frontend, in their order: `src/cbadc/circuit/analog_frontend.py:31-40`. -/
def afPins (L M : ℕ) : List String :=
  ["VSS", "VDD", "CLK", "VCM"] ++ group "IN" "_P" L ++ group "IN" "_N" L ++ group "OUT" "_P" M ++ group "OUT" "_N" M

/-- The look up of one operand of a connection: a terminal of the test bench or of its frontend by name
(`ValueError` for a name that does not exist), a terminal of the observer, which has one per control after that
of the clock, by number: `src/cbadc/circuit/__init__.py:289-297` and `src/cbadc/circuit/components/observer.py:28`. -/
def lookup (n L M : ℕ) : Obj → Res Obj
  | .own s => if s ∈ tbPins n M then .ok (.own s) else .error .valueError
  | .pin e s => if s ∈ afPins L M then .ok (.pin e s) else .error .valueError
  | .num e k => if k < M + 1 then .ok (.num e k) else .error .indexError

/-- One connection `(first, second)`, `src/cbadc/circuit/testbench.py:366-386`. -/
def lookupConn (n L M : ℕ) (c : Obj × Obj) : Res (Obj × Obj) := do
  let a ← lookup n L M c.1
  let b ← lookup n L M c.2
  return (a, b)

/-- The connections made by the base class, `src/cbadc/circuit/testbench.py:96-101,115-118,147-152,165`, for `n` input
signals; the terminals it looks up are those it was created with. -/
def baseConns (n : ℕ) : List (Obj × Obj) :=
  supplyConns ++ (List.range n).flatMap inputConns ++ [(.own "CLK", .num "Aobs" 0)]

/-- `self.Xaf = …` followed by `self.add(self.Xaf)`, `src/cbadc/circuit/testbench.py:441-444,499-503`: the second call finds
the instance name taken and connects every terminal of the new element to the terminal of the same name of the old
one (`src/cbadc/circuit/__init__.py:484-490`), which is the same element. -/
def selfConns (L M : ℕ) : List (Obj × Obj) := (afPins L M).map fun s => (.pin "Xaf" s, .pin "Xaf" s)

/-- The connections of a test bench in the order they are made, or the exception its constructor ends with:
`src/cbadc/circuit/testbench.py:60-175` and `253-302` (the line that sets the frontend is a comment, the look up of
`self.Xaf` raises `AttributeError`), `334-386`, `415-467`, `471-527`. -/
noncomputable def build (k : Kind) (inputs : List Signal) (L M : ℕ) : Res (List (Obj × Obj)) := do
  let _ ← inputs.mapM inputWave
  let base := baseConns inputs.length
  match k with
  | .stateSpace => .error .attributeError
  | .opamp => return base ++ (← (frontendConns L M).mapM (lookupConn inputs.length L M))
  | .ota => return base ++ selfConns L M ++ (← (frontendConns L M).mapM (lookupConn inputs.length L M))
  | .lc => return base ++ selfConns L M ++ (← (frontendConns L M).mapM (lookupConn inputs.length L M))

/-- The node list of the frontend in the netlist of the test bench, one node per terminal:
`src/cbadc/circuit/__init__.py:233-245,378-387` and `src/cbadc/circuit/templates/ngspice/testbench.cir.j2`. -/
def frontendNodes (ids : String → ℕ → String) (cs : List (Obj × Obj)) (L M : ℕ) : List String :=
  (afPins L M).map fun s => (Wires.connects (Obj.name ids) cs .empty).node (Obj.name ids) (.pin "Xaf" s)

/-- `_sanity_check`, `src/cbadc/circuit/testbench.py:177-188`; `frontend` tells whether `self.Xaf` has been set (otherwise
looking it up raises `AttributeError`), `names` is what the check of the sub-circuit names (C126) of the frontend gives. -/
def sanityCheck (ids : String → ℕ → String) (frontend : Bool) (cs : List (Obj × Obj)) (M : ℕ) (names : Res Unit) :
    Res Unit :=
  if frontend then
    if (List.range (M + 1)).all fun k => ((Wires.connects (Obj.name ids) cs .empty).port (.num "Aobs" k)).isSome then
      names
    else .error .valueError
  else .error .attributeError

end Cbadc.TestBench
