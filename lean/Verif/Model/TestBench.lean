import Mathlib.Analysis.SpecialFunctions.Trigonometric.Basic
import Verif.Model.Circuit

/-!
# The test bench (`src/cbadc/circuit/testbench.py`) and its sources (`src/cbadc/circuit/components/sources.py`)

Terminals and connections as in `Verif.Model.Circuit`.  Only the sources of the test bench and the nodes they
are printed with are modelled here, not the analog frontend (C52, C53, C94).
-/

namespace Cbadc.TestBench
open Circuit

/-- The waveform of a source line, with the values in the order the templates print them:
`DC value` (`templates/ngspice/dc_voltage_source.cir.j2`),
`PULSE(val0 val1 delay rise fall width period)` (`templates/ngspice/pulse_voltage_source.cir.j2`) and
`SIN(offset amplitude frequency delay damping phase)` (`templates/ngspice/sine_voltage_source.cir.j2`), all in
`src/cbadc/circuit/`. -/
inductive Wave
  | dc (value : ℝ)
  | pulse (val0 val1 delay rise fall width period : ℝ)
  | sin (offset amplitude frequency delay damping phase : ℝ)

/-- A source line of the netlist: instance name, its two nodes, and the waveform,
`src/cbadc/circuit/components/sources.py:27-36,82-96,148-162`. -/
structure SourceLine where
  inst : String
  pos : String
  neg : String
  wave : Wave

/-- An input signal of the test bench: a `Sinusoidal` with its attributes or another analog signal
(`src/cbadc/circuit/testbench.py:62,121-123`). -/
inductive Signal
  | sinusoidal (amplitude frequency phase offset : ℝ)
  | other

/-- `PulseVoltageSource(name, val0, val1, period, rise, fall)` as printed for ngspice,
`src/cbadc/circuit/components/sources.py:57-96`: the delay printed is zero, not the attribute `delay_time`. -/
noncomputable def pulseWave (val0 val1 period rise fall : ℝ) : Wave :=
  .pulse val0 val1 0 rise fall (period * (1 / 2) - fall) period

/-- The instance names of the two sources of input `l`, `src/cbadc/circuit/testbench.py:131,141`. -/
def vinName (p : Bool) (l : ℕ) : String := fmt (if p then "Vin_p_" else "Vin_n_") l ""

/-- The connections of the supplies and the clock, `src/cbadc/circuit/testbench.py:96-101,115-118`. -/
def supplyConns : List (Obj × Obj) :=
  [(.own "VCM", .num "Vdd" 1), (.own "VDD", .num "Vdd" 0), (.own "0", .num "Vss" 1), (.own "VCM", .num "Vss" 0),
   (.own "CLK", .num "Vclk" 0), (.own "0", .num "Vclk" 1)]

/-- The connections of the sources of input `l`, `src/cbadc/circuit/testbench.py:147-152`. -/
def inputConns (l : ℕ) : List (Obj × Obj) :=
  [(.own (fmt "IN" l "_P"), .num (vinName true l) 0), (.own (fmt "IN" l "_N"), .num (vinName false l) 1),
   (.own "VCM", .num (vinName true l) 1), (.own "VCM", .num (vinName false l) 0)]

/-- The connections made by `OpAmpTestBench`, `src/cbadc/circuit/testbench.py:366-386`, and in the same way by
`OTATestBench`, `src/cbadc/circuit/testbench.py:446-467`, for `L` inputs and `M` controls. -/
def frontendConns (L M : ℕ) : List (Obj × Obj) :=
  [(.own "0", .pin "Xaf" "VSS"), (.own "VDD", .pin "Xaf" "VDD"), (.own "CLK", .pin "Xaf" "CLK"),
   (.own "VCM", .pin "Xaf" "VCM")] ++
  ((List.range L).flatMap fun l =>
    [(.own (fmt "IN" l "_P"), .pin "Xaf" (fmt "IN" l "_P")), (.own (fmt "IN" l "_N"), .pin "Xaf" (fmt "IN" l "_N"))]) ++
  ((List.range M).flatMap fun m =>
    [(.own (fmt "OUT" m "_P"), .num "Aobs" (1 + m)), (.own (fmt "OUT" m "_P"), .pin "Xaf" (fmt "OUT" m "_P")),
     (.own (fmt "OUT" m "_N"), .pin "Xaf" (fmt "OUT" m "_N"))])

/-- All connections of an `OpAmpTestBench` with `n` input signals, an analog system with as many inputs, and `M`
controls, in the order they are made: `src/cbadc/circuit/testbench.py:96-165,366-386`. -/
def conns (n M : ℕ) : List (Obj × Obj) :=
  supplyConns ++ (List.range n).flatMap inputConns ++ [(.own "CLK", .num "Aobs" 0)] ++ frontendConns n M

/-- The waveform given to both sources of an input, `src/cbadc/circuit/testbench.py:121-143`; an input that is not
a `Sinusoidal` raises `TypeError`. -/
noncomputable def inputWave : Signal → Res Wave
  | .sinusoidal amplitude frequency phase offset => .ok (.sin offset (amplitude / 2) frequency 0 0 phase)
  | .other => .error .typeError

/-- The line of a two-terminal source, `src/cbadc/circuit/components/sources.py:27-36,82-96,148-162`. -/
def line (ids : String → ℕ → String) (cs : List (Obj × Obj)) (inst : String) (w : Wave) : SourceLine :=
  let ws := Wires.connects (Obj.name ids) cs .empty
  ⟨inst, ws.node (Obj.name ids) (.num inst 0), ws.node (Obj.name ids) (.num inst 1), w⟩

/-- The source lines of the netlist of an `OpAmpTestBench`, `src/cbadc/circuit/testbench.py:92-155,190-206` and
`src/cbadc/circuit/templates/ngspice/testbench.cir.j2`: power supplies, clock, input signals.  `T` and `tt` are
the attributes of the clock (`testbench.py:104-112`); its delay and duty cycle are not used. -/
noncomputable def sourceLines (ids : String → ℕ → String) (inputs : List Signal) (M : ℕ) (T tt vdd : ℝ) :
    Res (List SourceLine) := do
  let waves ← inputs.mapM inputWave
  let cs := conns inputs.length M
  return [line ids cs "Vdd" (.dc (vdd / 2)), line ids cs "Vss" (.dc (vdd / 2)),
      line ids cs "Vclk" (pulseWave 0 vdd T tt tt)] ++
    (waves.zipIdx.flatMap fun w => [line ids cs (vinName true w.2) w.1, line ids cs (vinName false w.2) w.1])

end Cbadc.TestBench
