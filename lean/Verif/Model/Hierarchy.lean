import Verif.Model.Basic
import Mathlib.Algebra.Field.Basic
import Mathlib.Tactic.TypeStar

/-!
# Model of the hierarchy of circuits

`src/cbadc/circuit/__init__.py`: the functions that walk through the tree of sub-circuits to collect the
definitions and the device models a netlist needs and to compare the names of sub-circuits.
-/

namespace Cbadc.Hierarchy

/-- A device model: `ng_spice_model_name`, `model_name` and `parameters`.
`src/cbadc/circuit/__init__.py:116-146`.  Parameters are kept in the order in which they were given; the
comments are left out. -/
structure DevModel (V : Type*) where
  kind : String
  name : String
  params : List (String × V)

/-- `DeviceModel.__eq__`: `src/cbadc/circuit/__init__.py:157-163`. -/
def DevModel.eq {V : Type*} (a b : DevModel V) : Bool := a.kind == b.kind && a.name == b.name

/-- A circuit element as far as these functions look at it: a device with its model (or none), or a
sub-circuit with its `subckt_name`, the list `_subckt_names` it has stored, the text of its own definition
and the elements in it.  `src/cbadc/circuit/__init__.py:191-231`, `327-376`.  The text is the rendered
template of lines 419-434; it is taken as given, of an arbitrary type.  A `NetlistElement` is a sub-circuit
without elements whose text is the netlist (`src/cbadc/circuit/__init__.py:728-732`). -/
inductive Elem (δ : Type) (V : Type*)
  | device (model : Option (DevModel V))
  | sub (name : String) (cache : List String) (text : δ) (parts : List (Elem δ V))

variable {δ : Type} {V : Type*}

/-- `for x in new: if x not in result: result.append(x)`: `src/cbadc/circuit/__init__.py:439-441`, `469-471`;
`eq` is the comparison used by `in`. -/
def appendNew {α : Type*} (eq : α → α → Bool) (result new : List α) : List α :=
  new.foldl (fun r x => if r.any (fun y => eq y x) then r else r ++ [x]) result

mutual
/-- `SubCircuitElement.get_sub_circuit_definitions()` for ngspice: `src/cbadc/circuit/__init__.py:414-442`;
a device has none (line 438). -/
def defs [DecidableEq δ] : Elem δ V → List δ
  | .device _ => []
  | .sub _ _ text parts => defsLoop parts [text]
/-- The loop over the elements: `src/cbadc/circuit/__init__.py:437-441`. -/
def defsLoop [DecidableEq δ] : List (Elem δ V) → List δ → List δ
  | [], result => result
  | p :: ps, result => defsLoop ps (appendNew (fun x y => x == y) result (defs p))
end

mutual
/-- `_get_model_set()`: `src/cbadc/circuit/__init__.py:255-258` for a device, `465-472` for a sub-circuit. -/
def modelSet : Elem δ V → List (DevModel V)
  | .device none => []
  | .device (some m) => [m]
  | .sub _ _ _ parts => modelLoop parts []
/-- The loop over the elements: `src/cbadc/circuit/__init__.py:467-471`. -/
def modelLoop : List (Elem δ V) → List (DevModel V) → List (DevModel V)
  | [], result => result
  | p :: ps, result => modelLoop ps (appendNew DevModel.eq result (modelSet p))
end

mutual
/-- `_check_subckt_names()`: `src/cbadc/circuit/__init__.py:629-636`; the list and the element with the list
stored in it.  For a device the method does not exist and is not called (lines 634, 647). -/
def subcktNames : Elem δ V → List String × Elem δ V
  | .device m => ([], .device m)
  | .sub name cache text parts =>
    if cache = [] then
      (name :: (namesLoop parts).1, .sub name (name :: (namesLoop parts).1) text (namesLoop parts).2)
    else (cache, .sub name cache text parts)
/-- The loop over the elements: `src/cbadc/circuit/__init__.py:633-635`. -/
def namesLoop : List (Elem δ V) → List String × List (Elem δ V)
  | [] => ([], [])
  | p :: ps => ((subcktNames p).1 ++ (namesLoop ps).1, (subcktNames p).2 :: (namesLoop ps).2)
end

mutual
/-- `check_subckt_names()`: `src/cbadc/circuit/__init__.py:638-650`; the result is the element with the lists
stored on the way. -/
def checkNames : Elem δ V → Res (Elem δ V)
  | .device m => .ok (.device m)
  | .sub name cache text parts =>
    match checkLoop name parts with
    | .error e => .error e
    | .ok ps => .ok (.sub name cache text ps)
/-- The loop over the elements: `src/cbadc/circuit/__init__.py:646-650`. -/
def checkLoop (name : String) : List (Elem δ V) → Res (List (Elem δ V))
  | [] => .ok []
  | p :: ps =>
    match checkNames p with
    | .error e => .error e
    | .ok p' =>
      if name ∈ (subcktNames p').1 then .error .valueError
      else
        match checkLoop name ps with
        | .error e => .error e
        | .ok ps' => .ok ((subcktNames p').2 :: ps')
end

/-! ## The digital controls -/

variable {K : Type*} [Field K]

/-- The value of a parameter of a model: a number, a list of numbers or a file name.
`src/cbadc/circuit/models/comparator.py:18-25`, `src/cbadc/circuit/models/summer.py:21-28`,
`src/cbadc/circuit/models/reference_source.py:14-18`. -/
inductive Value (K : Type*)
  | num (x : K)
  | nums (l : List K)
  | str (s : String)

/-- `ADC_Bridge_Model(name, in_low, in_high, rise_delay, fall_delay)`:
`src/cbadc/circuit/models/comparator.py:5-25`. -/
def adcModel (name : String) (inLow inHigh rise fall : K) : DevModel (Value K) :=
  ⟨"adc_bridge", name, [("in_low", .num inLow), ("in_high", .num inHigh), ("rise_delay", .num rise),
    ("fall_delay", .num fall)]⟩

/-- `DAC_Bridge_Model(name, out_low, out_high, out_undef, input_load, t_rise, t_fall)`:
`src/cbadc/circuit/models/comparator.py:37-60`. -/
def dacModel (name : String) (low high undef load rise fall : K) : DevModel (Value K) :=
  ⟨"dac_bridge", name, [("out_low", .num low), ("out_high", .num high), ("out_undef", .num undef),
    ("input_load", .num load), ("t_rise", .num rise), ("t_fall", .num fall)]⟩

/-- `D_Flip_Flop_Model(name, clk_delay, set_delay, reset_delay, ic, rise_delay, fall_delay)`:
`src/cbadc/circuit/models/comparator.py:72-94`. -/
def dffModel (name : String) (clk set reset ic rise fall : K) : DevModel (Value K) :=
  ⟨"d_dff", name, [("clk_delay", .num clk), ("set_delay", .num set), ("reset_delay", .num reset),
    ("ic", .num ic), ("rise_delay", .num rise), ("fall_delay", .num fall)]⟩

/-- `SummerModel(name, input_offset, input_gain, output_offset, output_gain)`:
`src/cbadc/circuit/models/summer.py:6-30`. -/
def summerModel (name : String) (inOffset inGain : List K) (outOffset outGain : K) : DevModel (Value K) :=
  ⟨"summer", name, [("input_offset", .nums inOffset), ("input_gain", .nums inGain),
    ("output_offset", .num outOffset), ("output_gain", .num outGain)]⟩

/-- `ReferenceSourceModel(name, input_filename)`: `src/cbadc/circuit/models/reference_source.py:5-18`. -/
def sourceModel (name file : String) : DevModel (Value K) := ⟨"d_source", name, [("input_file", .str file)]⟩

/-- The arguments of the digital controls that enter the models; `eps` is the default `1e-15` of the delays
and of the input load of the dither control, `load` the default `1e-12` of the comparator.
`src/cbadc/circuit/digital_control.py:38-48`, `322-339`, `src/cbadc/circuit/components/comparator.py:297-318`. -/
structure Ctl (K : Type*) where
  inHigh : K
  inLow : K
  outHigh : K
  outLow : K
  T : K
  eps : K
  load : K

variable (text : String → δ)

/-- The elements of the `DifferentialOutputClockedComparator` of a `MultiInputComparator`:
`src/cbadc/circuit/components/comparator.py:331-378` with the arguments of
`src/cbadc/circuit/digital_control.py:195-208`. -/
def comparatorElem (c : Ctl K) : Elem δ (Value K) :=
  .sub "clocked_comparator" [] (text "clocked_comparator")
    [.device (some (adcModel "adc" c.inLow c.inHigh (c.T / 1000) (c.T / 1000))),
     .device (some (adcModel "adc" c.inLow c.inHigh (c.T / 1000) (c.T / 1000))),
     .device (some (dffModel "dflip" 0 c.eps c.eps 1 (c.T / 1000) (c.T / 1000))),
     .device (some (dacModel "dac" c.outLow c.outHigh ((c.outHigh - c.outLow) / 2) c.load
       (c.T / 100) (c.T / 100))),
     .device (some (dacModel "dac" c.outLow c.outHigh ((c.outHigh - c.outLow) / 2) c.load
       (c.T / 100) (c.T / 100)))]

/-- The elements of a `MultiInputComparator`: `src/cbadc/circuit/digital_control.py:158-208`, `230-241`;
`gains` is the list of input gains of its summer. -/
def multiInputElem (c : Ctl K) (gains : ℕ → List K) (m k : ℕ) : Elem δ (Value K) :=
  .sub ("multi_input_comparator_" ++ m.repr) [] (text ("multi_input_comparator_" ++ m.repr))
    [.device (some (summerModel ("sum_" ++ k.repr) ((gains k).map fun _ => 0) (gains k)
        ((c.outHigh - c.outLow) / 2 + c.outLow) 1)),
     comparatorElem text c]

/-- The elements of a `DigitalControl`: `src/cbadc/circuit/digital_control.py:62-79`. -/
def digitalElem (c : Ctl K) (gains : ℕ → List K) (M off : ℕ) : Elem δ (Value K) :=
  .sub "digital_control" [] (text "digital_control")
    ((List.range (M - off)).map fun i => multiInputElem text c gains (off + i) i)

/-- The elements of a `DitherControl` with `R` random controls: `src/cbadc/circuit/digital_control.py:352-458`. -/
def ditherElem (c : Ctl K) (gains : ℕ → List K) (M R : ℕ) (file : String) : Elem δ (Value K) :=
  .sub "dither_control" [] (text "dither_control")
    (digitalElem text c gains M R
      :: .device (some (sourceModel "r_source" file))
      :: .device (some (adcModel "adc" c.inLow c.inHigh c.eps c.eps))
      :: (((List.range R).map fun _ => .device (some (dffModel "dflip" 0 c.eps c.eps 1 c.eps c.eps)))
        ++ ((List.range R).map fun _ => .device (some (dacModel "dac" c.outLow c.outHigh
            ((c.outHigh + c.outLow) / 2) c.eps c.eps c.eps)))
        ++ ((List.range R).map fun _ => .device (some (dacModel "dac" c.outLow c.outHigh
            ((c.outHigh + c.outLow) / 2) c.eps c.eps c.eps)))))

end Cbadc.Hierarchy
