import Verif.Model.NgSpice
import Verif.Model.Bench

/-!
# The waveforms of a circuit simulation (`src/cbadc/circuit/simulator.py`)

What ngspice does is not modelled; a raw file is a list of time points and a list of named vectors.
-/

namespace Cbadc.NgSpice
open TestBench

/-- What `ltspice.Ltspice` holds after reading a raw file: the time points and the named vectors
(`src/cbadc/circuit/simulator.py:181-182`). -/
structure RawFile where
  time : List ℝ
  vars : List (String × List ℝ)

/-- A name as `get_data` of the `ltspice` package compares it, in lower case
(`src/cbadc/circuit/simulator.py:146,164,184,199`). -/
def key (s : String) : List Char := s.toList.map Char.toLower

/-- `get_data`, of the `ltspice` package: the first vector of that name, `None` if there is none
(`src/cbadc/circuit/simulator.py:146,164,184,199`). -/
def RawFile.getData (f : RawFile) (name : String) : Option (List ℝ) :=
  (f.vars.find? fun e => decide (key e.1 = key name)).map (·.2)

/-- `f"V({name})"`, `src/cbadc/circuit/simulator.py:146,164,199` and
`src/cbadc/circuit/templates/ngspice/simulator.cir.j2:28`. -/
def voltage (name : String) : String := "V(" ++ name ++ ")"

/-- `highlighted_terminals`: groups of names of terminals, a dictionary (`src/cbadc/circuit/testbench.py:55,167-175`). -/
abbrev Groups := List (String × List String)

/-- The highlighted terminals of a new test bench with `n` input signals and `M` controls:
`src/cbadc/circuit/testbench.py:167-175`. -/
def highlighted (n M : ℕ) : Groups :=
  [("control", group "OUT" "_P" M ++ group "OUT" "_N" M), ("input", group "IN" "_P" n ++ group "IN" "_N" n)]

/-- The terminals of the states behind a prefix, `src/cbadc/circuit/simulator.py:69-70,157-159` and
`src/cbadc/circuit/analog_frontend.py:28-29`. -/
def stateNames (pre : String) (N : ℕ) : List String :=
  (group "X" "_P" N ++ group "X" "_N" N).map (pre ++ ·)

/-- `_save_variable_names`, fixed when the simulator is created: `src/cbadc/circuit/simulator.py:62-72`. -/
def saveNames (hl : Groups) (N : ℕ) : List String := hl.flatMap (·.2) ++ stateNames "Xaf." N

/-- The vectors of the line `.save` of the netlist, `src/cbadc/circuit/templates/ngspice/simulator.cir.j2:28`. -/
def saved (hl : Groups) (N : ℕ) : List String := "V(CLK)" :: (saveNames hl N).map voltage

/-- `highlighted_terminals[name]`: `src/cbadc/circuit/simulator.py:137,142,186,191`. -/
def groupOf (hl : Groups) (name : String) : Option (List String) :=
  (hl.find? fun g => decide (g.1 = name)).map (·.2)

/-- `np.vstack((time, *data)).transpose()`, `src/cbadc/circuit/simulator.py:149,168`: `ValueError` unless all vectors
have the length of the first.  Simplified: `np.array(None)` counts as one value, so that numpy would accept a missing
vector in a file with one time point. -/
def stack (time : List ℝ) (data : List (Option (List ℝ))) : Res (List (List ℝ)) :=
  if data.all fun d => decide (d.map List.length = some time.length) then
    .ok ((List.range time.length).map fun i => (time :: data.map fun d => d.getD []).map fun w => w.getD i 0)
  else .error .valueError

/-- A table: its headers and its rows, `src/cbadc/circuit/simulator.py:149,168`. -/
abbrev Table := List String × List (List ℝ)

/-- `get_input_signals`, `src/cbadc/circuit/simulator.py:135-149`; `raw` is the attribute `raw_file`, which does not exist
before `parse` has set it. -/
def getInputSignals (hl : Groups) (raw : Option RawFile) : Res Table :=
  match groupOf hl "input" with
  | none => .error .valueError
  | some names =>
    match raw with
    | none => .error .attributeError
    | some f => do
      let rows ← stack f.time (names.map fun s => f.getData (voltage s))
      return ("t" :: names, rows)

/-- `get_state_trajectories`, `src/cbadc/circuit/simulator.py:151-168`. -/
def getStateTrajectories (N : ℕ) (raw : Option RawFile) : Res Table :=
  match raw with
  | none => .error .attributeError
  | some f => do
    let rows ← stack f.time ((stateNames "XAF." N).map fun s => f.getData (voltage s))
    return ("t" :: stateNames "XAF." N, rows)

/-- One element of `s_raw`, before it is divided by the supply: `src/cbadc/circuit/simulator.py:198-202`.  The name is
looked up in a list (`IndexError`), and dividing `np.array(None)` raises `TypeError`. -/
def controlWave (f : RawFile) (names : List String) (i : ℕ) : Res (List ℝ) :=
  match names[i]? with
  | none => .error .indexError
  | some s => match f.getData (voltage s) with
    | none => .error .typeError
    | some w => .ok w

/-- The vectors `parse` loops over: `src/cbadc/circuit/simulator.py:184-206`.  `zip` raises `TypeError` if there is no
clock (an array without dimensions), and stops at the end of the shortest. -/
def readRaw (hl : Groups) (M : ℕ) (f : RawFile) : Res Raw :=
  match groupOf hl "control" with
  | none => .error .valueError
  | some names => do
    let ws ← (List.range M).mapM (controlWave f (names.take M))
    match f.getData "V(CLK)" with
    | none => .error .typeError
    | some c =>
      return ⟨(ws.map List.length).foldr min c.length, fun i => c.getD i 0, fun i m => (ws.getD m []).getD i 0⟩

end Cbadc.NgSpice
