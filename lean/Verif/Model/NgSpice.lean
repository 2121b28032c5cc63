import Mathlib.Data.Real.Basic
import Mathlib.Algebra.Order.Floor.Semiring
import Mathlib.Algebra.Order.Archimedean.Real.Basic
import Mathlib.Logic.Function.Basic
import Verif.Model.Basic

/-!
# Reading back a circuit simulation (`src/cbadc/circuit/simulator.py`, `src/cbadc/simulator/numpy_simulator.py`)

ngspice is not modelled: what it writes, the recorded voltages at a list of time points, is an arbitrary input.
The class of the same name in `src/cbadc/simulator/simulator.py` reads the control vectors by the same
statements (its lines 191-243).
-/

namespace Cbadc.NgSpice

/-- `_float_to_ternary`, `src/cbadc/circuit/simulator.py:345-351`. -/
noncomputable def floatToTernary (x : ℝ) : ℝ := if x > 2 / 3 then 1 else if x < 1 / 3 then 0 else 1 / 2

/-- The raw file: `n` time points, the voltage of the node `CLK` and the voltages of the control terminals at
each (`src/cbadc/circuit/simulator.py:181-203`). -/
structure Raw where
  n : ℕ
  clk : ℕ → ℝ
  v : ℕ → ℕ → ℝ

/-- The local variables of `parse` and the array it fills, `src/cbadc/circuit/simulator.py:91-100,204-214`. -/
structure PState where
  trigger : Bool
  index : ℕ
  cv : ℕ → ℕ → ℝ

/-- Body of the loop of `parse`, `src/cbadc/circuit/simulator.py:207-214`; `size` is
`control_vector.shape[0]`. -/
noncomputable def step (size : ℕ) (vcm : ℝ) (raw : Raw) (st : PState) (i : ℕ) : PState :=
  if st.trigger = false ∧ raw.clk i ≤ vcm then
    if st.index < size then
      { trigger := true, index := st.index + 1,
        cv := Function.update st.cv st.index fun m => floatToTernary (raw.v i m / (vcm * 2)) }
    else { st with trigger := true }
  else if st.trigger = true ∧ raw.clk i > vcm then { st with trigger := false }
  else st

/-- The loop of `parse`, `src/cbadc/circuit/simulator.py:204-214`, on the array `cv`. -/
noncomputable def parse (size : ℕ) (vcm : ℝ) (raw : Raw) (cv : ℕ → ℕ → ℝ) : PState :=
  (List.range raw.n).foldl (step size vcm raw) ⟨false, 0, cv⟩

/-- `int(np.ceil(t_end / T))`, `src/cbadc/circuit/simulator.py:93-97`, for `0 ≤ t_end` and `0 < T`. -/
noncomputable def size (tEnd T : ℝ) : ℕ := ⌈tEnd / T⌉₊

/-- The attributes of an `NGSpiceSimulator` that its iterator uses: three flags, the control vectors, the position
of `_control_iterator`, and (not an attribute) how often ngspice has been run,
`src/cbadc/circuit/simulator.py:91-114,215`. -/
structure Sim where
  made : Bool
  ran : Bool
  parsed : Bool
  cv : ℕ → ℕ → ℝ
  pos : ℕ
  runs : ℕ

/-- A new simulator, `src/cbadc/circuit/simulator.py:91-114`. -/
noncomputable def Sim.new : Sim := ⟨false, false, false, fun _ _ => 0, 0, 0⟩

/-- `make_netlist`, `src/cbadc/circuit/simulator.py:222-240`; the netlist itself is the subject of the circuit
model. -/
def Sim.makeNetlist (s : Sim) : Sim := { s with made := true }

/-- `run`, `src/cbadc/circuit/simulator.py:116-133`; ngspice is taken to succeed. -/
def Sim.run (s : Sim) : Sim := { s with ran := true, runs := s.runs + 1 }

/-- `parse`, `src/cbadc/circuit/simulator.py:179-216`; ngspice is deterministic, so the file has the same contents
after every run. -/
noncomputable def Sim.parse (sz : ℕ) (vcm : ℝ) (raw : Raw) (s : Sim) : Sim :=
  { s with parsed := true, cv := (NgSpice.parse sz vcm raw s.cv).cv, pos := 0 }

/-- `_lazy_initialize`, `src/cbadc/circuit/simulator.py:245-252`. -/
noncomputable def Sim.lazy (sz : ℕ) (vcm : ℝ) (raw : Raw) (s : Sim) : Sim :=
  if !s.made || !s.ran || !s.parsed then (s.makeNetlist.run).parse sz vcm raw else s

/-- `__next__`, `src/cbadc/circuit/simulator.py:254-256`: initialise, then the next row of the array. -/
noncomputable def Sim.next (sz : ℕ) (vcm : ℝ) (raw : Raw) (s : Sim) : Res (ℕ → ℝ) × Sim :=
  let s' := s.lazy sz vcm raw
  if s'.pos < sz then (.ok (s'.cv s'.pos), { s' with pos := s'.pos + 1 }) else (.error .stopIteration, s')

/-! ## `NumpySimulator` -/

/-- What `NumpySimulator` was given: an array (its rows), the name of an `.npy` file holding one, or of an `.npz`
file, a dictionary from names to arrays (`src/cbadc/simulator/numpy_simulator.py:18-25`). -/
inductive Source (V : Type)
  | array (rows : List V)
  | npy (rows : List V)
  | npz (entries : List (String × List V))

/-- What its iterator yields: rows, or the names of the arrays of an `.npz` file (iterating `NpzFile` gives its
keys), `src/cbadc/simulator/numpy_simulator.py:30-34`. -/
inductive Item (V : Type)
  | row (v : V)
  | name (s : String)

/-- The items of `iter(...)`, `src/cbadc/simulator/numpy_simulator.py:30-34`. -/
def Source.items {V : Type} : Source V → List (Item V)
  | .array rows => rows.map .row
  | .npy rows => rows.map .row
  | .npz entries => entries.map fun e => .name e.1

/-- A `NumpySimulator`: its source and what is left of its iterator,
`src/cbadc/simulator/numpy_simulator.py:18-34`. -/
structure NumpySim (V : Type) where
  source : Source V
  rest : List (Item V)

/-- `NumpySimulator.reset`, `src/cbadc/simulator/numpy_simulator.py:30-34`; the argument `t` is not used. -/
def NumpySim.reset {V : Type} (s : NumpySim V) : NumpySim V := { s with rest := s.source.items }

/-- `NumpySimulator.__init__`, `src/cbadc/simulator/numpy_simulator.py:18-25`. -/
def NumpySim.new {V : Type} (src : Source V) : NumpySim V := NumpySim.reset ⟨src, []⟩

/-- `NumpySimulator.__next__`, `src/cbadc/simulator/numpy_simulator.py:27-28`. -/
def NumpySim.next {V : Type} (s : NumpySim V) : Res (Item V) × NumpySim V :=
  match s.rest with
  | [] => (.error .stopIteration, s)
  | a :: l => (.ok a, { s with rest := l })

/-- `iter(simulator)`, as `for … in simulator` calls it: Python looks up `__iter__` on the class, which defines
none (`src/cbadc/simulator/numpy_simulator.py:6-34`; the attribute of that name set in line 32 belongs to the
object). -/
def NumpySim.iter {V : Type} (_ : NumpySim V) : Res (NumpySim V) := .error .typeError

end Cbadc.NgSpice
