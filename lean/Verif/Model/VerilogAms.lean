import Verif.Spec.VerilogAms
import Mathlib.Data.List.Range

/-!
# The Verilog-AMS modules and their instances

`src/cbadc/circuit/models/summer.py`, `integrator.py`, `comparator.py`, the templates in
`src/cbadc/circuit/templates/verilog_ams`, and the printing of summers in `src/cbadc/circuit/components/summer.py`.  The
text of an expression is a list of tokens; numbers are real numbers.
-/

namespace Cbadc.Vams

/-- How a number is printed by `str`: with a minus sign if it is negative,
`src/cbadc/circuit/templates/verilog_ams/summer.vams.j2:23` and `integrator.vams.j2:23`. -/
noncomputable def number (v : ℝ) : List Tok := if v < 0 then [.minus, .num (-v)] else [.num v]

/-- The entries `sign` and `magnitude`, `src/cbadc/circuit/models/summer.py:53-59`, printed one after the other by
`src/cbadc/circuit/templates/verilog_ams/summer.vams.j2:23`. -/
noncomputable def signed (v : ℝ) : List Tok := (if v < 0 then .minus else .plus) :: number |v|

/-- `f'in_{index}'`, `src/cbadc/circuit/models/summer.py:61,74`. -/
def inName (index : ℕ) : String := "in_" ++ index.repr

/-- One input of the summer, `src/cbadc/circuit/models/summer.py:51-62` and
`src/cbadc/circuit/templates/verilog_ams/summer.vams.j2:23`. -/
noncomputable def summerInput (index : ℕ) (gain offset : ℝ) : List Tok :=
  if gain ≠ 0 then
    signed gain ++ ([.times, .lpar, .probe2 (inName index) "vgnd"] ++ ((if offset ≠ 0 then signed offset else []) ++ [.rpar]))
  else []

/-- All inputs from number `index` on, `src/cbadc/circuit/models/summer.py:50-69`. -/
noncomputable def summerInputs : ℕ → List ℝ → List ℝ → List Tok
  | index, gain :: gains, offset :: offsets => summerInput index gain offset ++ summerInputs (index + 1) gains offsets
  | _, _, _ => []

/-- The contribution to `V(out)`, `src/cbadc/circuit/templates/verilog_ams/summer.vams.j2:23`. -/
noncomputable def summerText (gain offset : List ℝ) (outGain outOffset : ℝ) : List Tok :=
  number outGain ++ ([.times, .lpar] ++ (summerInputs 0 gain offset ++ ([.rpar, .plus] ++ number outOffset)))

/-- The ports of the summer, `src/cbadc/circuit/models/summer.py:73-76`. -/
def summerPorts (n : ℕ) : List String := (List.range n).map inName ++ ["out", "vgnd"]

/-- A module: its ports and what it contributes to `V(out)`,
`src/cbadc/circuit/templates/verilog_ams/base_module.vams.j2`. -/
structure Module where
  ports : List String
  text : List Tok

/-- `SummerModel(...)` with `get_verilog_ams()`, `src/cbadc/circuit/models/summer.py:10-78`. -/
noncomputable def summerModule (gain offset : List ℝ) (outGain outOffset : ℝ) : Res Module :=
  if gain.length ≠ offset.length then .error .valueError
  else .ok ⟨summerPorts gain.length, summerText gain offset outGain outOffset⟩

/-- The parameters of an integrator and their defaults, `src/cbadc/circuit/models/integrator.py:9-30`. -/
structure IntegratorParams where
  in_offset : ℝ := 0
  gain : ℝ := 1
  out_lower_limit : ℝ := -10
  out_upper_limit : ℝ := 10
  limit_range : ℝ := 1 / 10 ^ 6
  out_ic : ℝ := 0

/-- `IntegratorModel.get_verilog_ams`, `src/cbadc/circuit/models/integrator.py:42-68` and
`src/cbadc/circuit/templates/verilog_ams/integrator.vams.j2:23`.  (The assignment of the initial value, line 19 of the
template, is not modelled; the limits are not printed.) -/
noncomputable def integratorModule (p : IntegratorParams) : Module :=
  ⟨["in", "out"], number p.gain ++ ([.times, .idt, .probe "in"] ++
    ((if p.in_offset ≠ 0 then (if p.in_offset < 0 then Tok.minus else .plus) :: number p.in_offset else []) ++ [.rpar]))⟩

/-- The decision of the clocked comparator at a clock edge,
`src/cbadc/circuit/templates/verilog_ams/clocked_comparator.vams.j2:32-40`. -/
def comparatorLevel {K : Type*} [LE K] [LT K] [DecidableLE K] [DecidableLT K] (inLow inHigh outLow outHigh outUndef v : K) : K :=
  if v ≥ inHigh then outHigh else if v < inLow then outUndef else outLow

/-- The node that an instance connects to a port, by position, `src/cbadc/circuit/templates/spectre/verilog_ams.cir.j2:2`. -/
def portNode : List String → List String → String → String
  | p :: ports, n :: nodes, q => if q = p then n else portNode ports nodes q
  | _, _, q => q

/-- What an instance of a module with the given nodes means: the driven node and its voltage, given the voltages of the
nodes; nothing if the numbers of nodes and ports differ or the text cannot be read.
`src/cbadc/circuit/templates/spectre/verilog_ams.cir.j2:2`. -/
noncomputable def Module.instance (m : Module) (nodes : List String) (volt : String → ℝ → ℝ) : Option (String × (ℝ → ℝ)) :=
  if m.ports.length = nodes.length then
    (Spec.value (fun q => volt (portNode m.ports nodes q)) m.text).map fun v => (portNode m.ports nodes "out", v)
  else none

/-- The input vector of a `Summer` in a netlist for ngspice and its output node,
`src/cbadc/circuit/components/summer.py:41-48`: pairs of nodes whose difference is the input. -/
def summerNgspice (nodes : List String) : List (String × String) × String :=
  (nodes.dropLast.dropLast.map fun node => (node, nodes.getLast?.getD ""), nodes.dropLast.getLast?.getD "")

/-- The same of a `DifferentialSummer`, `src/cbadc/circuit/components/summer.py:112-124`. -/
def diffSummerNgspice (n : ℕ) (nodes : List String) : List (String × String) × String :=
  ((nodes.take n).zip ((nodes.drop n).take n), nodes.getLast?.getD "")

/-- What a summer means in ngspice: the driven node and its voltage, `src/cbadc/circuit/components/summer.py:50-59` and
`src/cbadc/circuit/models/summer.py:32-44`. -/
noncomputable def ngspiceSummer (line : List (String × String) × String) (gain offset : List ℝ) (outGain outOffset : ℝ)
    (volt : String → ℝ → ℝ) : String × (ℝ → ℝ) :=
  (line.2, Spec.summer gain offset outGain outOffset (line.1.map fun p => volt p.1 - volt p.2))

end Cbadc.Vams
