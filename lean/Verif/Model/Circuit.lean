import Verif.Model.Basic
import Verif.Model.AnalogSystem
import Mathlib.Algebra.Field.Basic
import Mathlib.Algebra.Order.Group.Unbundled.Abs
import Mathlib.Logic.Function.Basic

/-!
# Model of the circuit package

`src/cbadc/circuit/__init__.py` (terminals, connections, sub-circuits, netlists), and the two
frontends built on top of it, `src/cbadc/circuit/opamp.py` and `src/cbadc/circuit/ota.py`.

A terminal is a Python object compared by identity; the type `τ` of the model is the type of these
identities and `nm : τ → String` gives the (upper-case, non-empty) `name` attribute.  Text is only
modelled as far as it carries meaning: a netlist is a list of lines, a line is the instance name,
the device with its value, and the list of node names in the order the template prints them.
Comments, logging and the parameter dictionaries of the xspice models are left out.
-/

namespace Cbadc.Circuit

variable {τ : Type} [DecidableEq τ]

/-! ## Elements and their terminals -/

/-- The two attributes of a `CircuitElement` that `add_terminal` maintains, `_terminals` and
`_terminal_lookup`: `src/cbadc/circuit/__init__.py:191-193`, `216-218`. -/
structure Element (τ : Type) where
  terms : List τ
  lookup : String → Option ℕ

/-- A new element before any terminal is added: `src/cbadc/circuit/__init__.py:216-217`. -/
def Element.empty : Element τ := ⟨[], fun _ => none⟩

omit [DecidableEq τ] in
/-- The loop that rewrites the lookup after an insertion: `src/cbadc/circuit/__init__.py:284-285`. -/
def rebuild (nm : τ → String) : List τ → ℕ → (String → Option ℕ) → (String → Option ℕ)
  | [], _, d => d
  | t :: ts, i, d => rebuild nm ts (i + 1) (Function.update d (nm t) (some i))

/-- `CircuitElement.add_terminal`: `src/cbadc/circuit/__init__.py:264-287`.  The argument is taken
to be a `Terminal` (the type check of line 274 is left out). -/
def Element.addTerminal (nm : τ → String) (e : Element τ) (t : τ) (index : ℤ) : Res (Element τ) :=
  if index = -1 then
    if (e.lookup (nm t)).isSome then .error .valueError
    else .ok ⟨e.terms ++ [t], Function.update e.lookup (nm t) (some e.terms.length)⟩
  else if 0 ≤ index ∧ index < e.terms.length then
    let ts := e.terms.insertIdx index.toNat t
    .ok ⟨ts, rebuild nm ts 0 e.lookup⟩
  else .error .valueError

/-- `CircuitElement.add_terminals`: `src/cbadc/circuit/__init__.py:299-312`. -/
def Element.addTerminals (nm : τ → String) : List τ → Element τ → Res (Element τ)
  | [], e => .ok e
  | t :: ts, e =>
    match e.addTerminal nm t (-1) with
    | .error x => .error x
    | .ok e' => Element.addTerminals nm ts e'

/-- A history of calls to `add_terminal` with the given indices; it stops at the first error.
`src/cbadc/circuit/__init__.py:264-287`. -/
def Element.addAll (nm : τ → String) : List (τ × ℤ) → Element τ → Res (Element τ)
  | [], e => .ok e
  | (t, k) :: ts, e =>
    match e.addTerminal nm t k with
    | .error x => .error x
    | .ok e' => Element.addAll nm ts e'

/-- `CircuitElement.__getitem__` with a string: `src/cbadc/circuit/__init__.py:292-296`; `upper` is
`str.upper`. -/
def Element.getName (upper : String → String) (e : Element τ) (key : String) : Res τ :=
  match e.lookup (upper key) with
  | none => .error .valueError
  | some i =>
    match e.terms[i]? with
    | none => .error .indexError
    | some t => .ok t

/-- `CircuitElement.__getitem__` with an integer: `src/cbadc/circuit/__init__.py:290-291`, python
list indexing. -/
def Element.getInt (e : Element τ) (k : ℤ) : Res τ :=
  let j := if k < 0 then k + e.terms.length else k
  if j < 0 then .error .indexError
  else
    match e.terms[j.toNat]? with
    | none => .error .indexError
    | some t => .ok t

/-! ## Connections -/

/-- The connections of a sub-circuit, `_internal_connections`, with the attribute `name` of its
ports: `src/cbadc/circuit/__init__.py:347`, `75-90`.  Ports are numbered in the order of creation.
The attribute `terminals` of a port (lines 84, 90, 100, 113) is written but never read by the
package and is left out, and so is the initial entry of line 376, whose key no caller can hold. -/
structure Wires (τ : Type) where
  port : τ → Option ℕ
  name : ℕ → String
  next : ℕ

/-- No connection: `src/cbadc/circuit/__init__.py:376`. -/
def Wires.empty : Wires τ := ⟨fun _ => none, fun _ => "", 0⟩

/-- The first half of `SubCircuitElement.connect`: `src/cbadc/circuit/__init__.py:571-588`. -/
def Wires.join (w : Wires τ) (a b : τ) : Wires τ :=
  match w.port a, w.port b with
  | some p, some _ => { w with port := Function.update w.port b (some p) }
  | some p, none => { w with port := Function.update w.port b (some p) }
  | none, some q => { w with port := Function.update w.port a (some q) }
  | none, none =>
    { w with
      port := Function.update (Function.update w.port a (some w.next)) b (some w.next),
      next := w.next + 1 }

/-- The second half of `connect`, naming the port: `src/cbadc/circuit/__init__.py:590-599`. -/
def Wires.rename (nm : τ → String) (w : Wires τ) (a b : τ) (name : String) : Wires τ :=
  match w.port a with
  | none => w
  | some p =>
    let s := if name ≠ "" then name else if nm a ≠ "" then nm a else nm b
    { w with name := Function.update w.name p s }

/-- `SubCircuitElement.connect`: `src/cbadc/circuit/__init__.py:544-599`. -/
def Wires.connect (nm : τ → String) (w : Wires τ) (a b : τ) (name : String := "") : Wires τ :=
  (w.join a b).rename nm a b name

/-- `SubCircuitElement.connects`: `src/cbadc/circuit/__init__.py:533-542`. -/
def Wires.connects (nm : τ → String) (cs : List (τ × τ)) (w : Wires τ) : Wires τ :=
  cs.foldl (fun w c => w.connect nm c.1 c.2) w

/-- One entry of `_get_terminal_names`: `src/cbadc/circuit/__init__.py:233-245`; the number of a
port stands for its `id`. -/
def Wires.node (nm : τ → String) (w : Wires τ) (t : τ) : String :=
  match w.port t with
  | some p => if w.name p ≠ "" then w.name p else toString p
  | none => nm t

/-! ## Sub-circuits -/

/-- The devices that occur in the frontends, with the value the netlist prints:
`components/passives.py` (`Resistor`, `Capacitor`, `Inductor`), `components/ota.py` (`OTA`, a voltage controlled
current source), `components/voltage_buffer.py` (a voltage controlled voltage source of gain one)
and instances of sub-circuits, known by their `subckt_name`; `sum` is a `DifferentialSummer`
(`components/summer.py:72-139`) with its input gains and output offset, the input offsets being zero
and the output gain one; `delay` is an `AnalogDelay` (`components/analog_delay.py:18-53`); `other` stands
for the other xspice devices. -/
inductive Device (K : Type*)
  | res (r : K)
  | cap (c : K)
  | ind (l : K)
  | vccs (g : K)
  | vcvs (g : K)
  | sub (name : String)
  | sum (gain : List K) (offset : K)
  | delay (d : K)
  | other (model : String)
deriving DecidableEq

/-- An element of a sub-circuit: instance name, device and terminals,
`src/cbadc/circuit/__init__.py:191-231`. -/
structure Part (τ : Type) (K : Type*) where
  inst : String
  dev : Device K
  terms : List τ

/-- A sub-circuit: `_subckts` in insertion order and `_internal_connections`,
`src/cbadc/circuit/__init__.py:346-376`. -/
structure Sub (τ : Type) (K : Type*) where
  parts : List (Part τ K)
  wires : Wires τ

/-- A sub-circuit without parts: `src/cbadc/circuit/__init__.py:375-376`. -/
def Sub.empty {K : Type*} : Sub τ K := ⟨[], .empty⟩

/-- The terminal of a part with a given name (`__value[terminal.name]`),
`src/cbadc/circuit/__init__.py:493`, `292-296`. -/
def Part.byName {K : Type*} (nm : τ → String) (e : Part τ K) (s : String) : Res τ :=
  match e.terms.find? (fun t => nm t = s) with
  | none => .error .valueError
  | some t => .ok t

/-- The loop that connects the terminals of a replaced part to the new one:
`src/cbadc/circuit/__init__.py:491-493`. -/
def reconnect {K : Type*} (nm : τ → String) (e : Part τ K) : List τ → Wires τ → Res (Wires τ)
  | [], w => .ok w
  | t :: ts, w =>
    match e.byName nm (nm t) with
    | .error x => .error x
    | .ok t' => reconnect nm e ts (w.connect nm t' t)

/-- `SubCircuitElement.add` of one element and the branch of `__setattr__` it reaches:
`src/cbadc/circuit/__init__.py:520-531`, `477-496`.  The name used is the instance name, so the two
checks of lines 483 and 489 never fire.  Replacing an element keeps its place in the dictionary. -/
def Sub.add {K : Type*} (nm : τ → String) (s : Sub τ K) (e : Part τ K) : Res (Sub τ K) :=
  match s.parts.find? (fun p => p.inst = e.inst) with
  | none => .ok { s with parts := s.parts ++ [e] }
  | some old =>
    match reconnect nm e old.terms s.wires with
    | .error x => .error x
    | .ok w =>
      .ok ⟨s.parts.map (fun p => if p.inst = e.inst then e else p), w⟩

/-- One statement of a constructor that builds a sub-circuit: `self.add(e)` or
`self.connect(a, b)`.  `src/cbadc/circuit/__init__.py:520-599`. -/
inductive Op (τ : Type) (K : Type*)
  | add (e : Part τ K)
  | conn (a b : τ)

/-- Run the statements of a constructor in order.  `src/cbadc/circuit/__init__.py:520-599`. -/
def Sub.run {K : Type*} (nm : τ → String) : List (Op τ K) → Sub τ K → Res (Sub τ K)
  | [], s => .ok s
  | .add e :: os, s =>
    match s.add nm e with
    | .error x => .error x
    | .ok s' => Sub.run nm os s'
  | .conn a b :: os, s => Sub.run nm os { s with wires := s.wires.connect nm a b }

/-- A line of a netlist: instance name, device, node names.
`src/cbadc/circuit/templates/ngspice/*.cir.j2`. -/
structure Line (K : Type*) where
  inst : String
  dev : Device K
  nodes : List String

/-- The nodes of a `DifferentialSummer`: the first half of the terminals is paired with the second
half, then comes the last terminal.  `src/cbadc/circuit/components/summer.py:112-126`; the brackets
and `%vd` are not modelled. -/
def pairUp (l : List String) : List String :=
  let k := l.length / 2
  ((l.take k).zip ((l.drop k).take k)).flatMap (fun p => [p.1, p.2]) ++ l.drop (2 * k)

/-- The order in which a template prints the nodes.  `templates/ngspice/ota.cir.j2` and
`templates/ngspice/voltage_buffer.cir.j2` print the terminals 4, 5, 2, 3; an `ADCBridgeAbsolute`
(model name `adc`) prints its terminals 0 and 1 only (`src/cbadc/circuit/components/comparator.py:71-76`);
the other templates print all terminals in order. -/
def nodeOrder {K : Type*} : Device K → List String → List String
  | .vccs _, [_, _, c, d, a, b] => [a, b, c, d]
  | .vcvs _, [_, _, c, d, a, b] => [a, b, c, d]
  | .sum _ _, l => pairUp l
  | .other k, [a, b, c] => if k = "adc" then [a, b] else [a, b, c]
  | _, l => l

/-- `get_ngspice(connections)` of one part: e.g. `src/cbadc/circuit/components/ota.py:42-50`. -/
def Part.line {K : Type*} (nm : τ → String) (w : Wires τ) (e : Part τ K) : Line K :=
  ⟨e.inst, e.dev, nodeOrder e.dev (e.terms.map (w.node nm))⟩

/-- The body of a sub-circuit definition: `src/cbadc/circuit/__init__.py:419-434` and
`templates/ngspice/sub_circuit_definition.cir.j2`. -/
def Sub.netlist {K : Type*} (nm : τ → String) (s : Sub τ K) : List (Line K) :=
  s.parts.map (Part.line nm s.wires)

/-! ## Terminals of the frontends -/

/-- The terminal objects that the constructors of the frontends create.  `own s` is the terminal
named `s` that belongs to the sub-circuit itself (its own terminals and the free-standing ones such
as `X0_P` or `VGND_0_P`), `pin e s` is the terminal named `s` of the part `e`, `num e k` is the
unnamed terminal number `k` of the part `e`.  Lookups by name (`self["VSS"]`, `ota["IN_P"]`) are
modelled by the object of that name; that the lookup returns it is property C54. -/
inductive Obj
  | own (s : String)
  | pin (e s : String)
  | num (e : String) (k : ℕ)
deriving DecidableEq

/-- The names of these terminals; an unnamed terminal is named after a running counter
(`src/cbadc/circuit/__init__.py:54-58`), here an arbitrary function of the part and position. -/
def Obj.name (ids : String → ℕ → String) : Obj → String
  | .own s => s
  | .pin _ s => s
  | .num e k => ids e k

/-- A formatted name `f"{pre}{i}{suf}"`, e.g. `f"X{i}_P"`:
`src/cbadc/circuit/analog_frontend.py:30-31`. -/
def fmt (pre : String) (i : ℕ) (suf : String) : String := pre ++ (i.repr ++ suf)

/-- A formatted instance name `f"{pre}{i}_{j}"`, e.g. `f"RP_b_{n}_{l}"` after the constructor put
everything but the first letter in lower case: `src/cbadc/circuit/opamp.py:141-142`, `168`,
`src/cbadc/circuit/__init__.py:212`. -/
def fmt2 (pre : String) (i j : ℕ) : String := pre ++ (i.repr ++ ("_" ++ j.repr))

/-- The terminals of the digital control, the dither control and the multi-phase control, in
order: `src/cbadc/circuit/digital_control.py:52-60`, `343-350`, `577-584`. -/
def controlPins (N L M : ℕ) : List String :=
  ["VSS", "VDD", "CLK", "VCM"]
    ++ (List.range N).map (fmt "X" · "_P") ++ (List.range N).map (fmt "X" · "_N")
    ++ (List.range L).map (fmt "IN" · "_P") ++ (List.range L).map (fmt "IN" · "_N")
    ++ (List.range M).map (fmt "S" · "_P") ++ (List.range M).map (fmt "S" · "_N")

/-- `CircuitAnalogFrontend._generate_digital_control`:
`src/cbadc/circuit/analog_frontend.py:56-121`, with `out = "OUT"`, and the same statements in
`DitherControl._generate_digital_control`: `src/cbadc/circuit/digital_control.py:474-536`, with
`out = "S"`.  Which of the three controls is created does not matter here, they have the same
terminals. -/
def controlOps {K : Type*} (out : String) (N L M : ℕ) : List (Op Obj K) :=
  .add ⟨"Xdc", .sub "digital_control", (controlPins N L M).map (.pin "Xdc")⟩
    :: (["VSS", "VDD", "CLK", "VCM"].map fun s => .conn (.own s) (.pin "Xdc" s))
    ++ ((List.range N).flatMap fun n =>
        [.conn (.own (fmt "X" n "_P")) (.pin "Xdc" (fmt "X" n "_P")),
         .conn (.own (fmt "X" n "_N")) (.pin "Xdc" (fmt "X" n "_N"))])
    ++ ((List.range L).flatMap fun l =>
        [.conn (.own (fmt "IN" l "_P")) (.pin "Xdc" (fmt "IN" l "_P")),
         .conn (.own (fmt "IN" l "_N")) (.pin "Xdc" (fmt "IN" l "_N"))])
    ++ ((List.range M).flatMap fun m =>
        [.conn (.own (fmt out m "_P")) (.pin "Xdc" (fmt "S" m "_P")),
         .conn (.own (fmt out m "_N")) (.pin "Xdc" (fmt "S" m "_N"))])

section Frontends

variable {K : Type*} [Field K] [LinearOrder K]

/-! ## The op-amp frontend -/

/-- The two terminals of a resistor or capacitor: `src/cbadc/circuit/components/passives.py:30`, `83`. -/
def twoPin (e : String) : List Obj := [.num e 0, .num e 1]

/-- `OpAmpFrontend._generate_resistor_pair`: `src/cbadc/circuit/opamp.py:133-155`; `name` is the
instance name without the leading `RP_`/`RN_`.  Entries are exact numbers. -/
def resistorPair (v : K) (name : String) (t1p t1n t2p t2n : Obj) (C : K) : List (Op Obj K) :=
  let rp := "Rp_" ++ name
  let rn := "Rn_" ++ name
  [.add ⟨rp, .res (1 / (1 * C * |v|)), twoPin rp⟩, .add ⟨rn, .res (1 / (1 * C * |v|)), twoPin rn⟩]
    ++ (if v < 0 then
          [.conn t1p (.num rp 0), .conn t1n (.num rn 0), .conn t2p (.num rp 1), .conn t2n (.num rn 1)]
        else
          [.conn t1p (.num rp 0), .conn t1n (.num rn 0), .conn t2p (.num rn 1), .conn t2n (.num rp 1)])

/-- One of the three double loops of `_generate_state_resistor_network`:
`src/cbadc/circuit/opamp.py:164-176` (`pre = "b_"`, sources `IN{l}`), `179-188` (`"a_"`, `X{nn}`),
`191-203` (`"gamma_"`, `OUT{m}`). -/
def resistorLoop (pre src : String) (N J : ℕ) (F : ℕ → ℕ → K) (C : K) : List (Op Obj K) :=
  (List.range N).flatMap fun n => (List.range J).flatMap fun j =>
    if F n j ≠ 0 then
      resistorPair (F n j) (fmt2 pre n j) (.own (fmt src j "_P")) (.own (fmt src j "_N"))
        (.own (fmt "VGND_" n "_P")) (.own (fmt "VGND_" n "_N")) C
    else []

/-- The terminals of the sub-circuit `OpAmp`: `src/cbadc/circuit/components/opamp.py:38-46`. -/
def opampPins : List String := ["VDD", "VSS", "VCM", "IN_P", "IN_N", "OUT_P", "OUT_N"]

/-- `OpAmpFrontend._generate_integrators`: `src/cbadc/circuit/opamp.py:76-131`. -/
def opampIntegrators (N : ℕ) (C : K) : List (Op Obj K) :=
  ((List.range N).map fun n =>
      .add ⟨fmt "Xop_" n "", .sub "opamp", opampPins.map (.pin (fmt "Xop_" n ""))⟩)
    ++ ((List.range N).flatMap fun n =>
        [.conn (.own (fmt "X" n "_P")) (.pin (fmt "Xop_" n "") "OUT_P"),
         .conn (.own (fmt "X" n "_N")) (.pin (fmt "Xop_" n "") "OUT_N"),
         .conn (.own (fmt "VGND_" n "_P")) (.pin (fmt "Xop_" n "") "IN_P"),
         .conn (.own (fmt "VGND_" n "_N")) (.pin (fmt "Xop_" n "") "IN_N"),
         .conn (.own "VSS") (.pin (fmt "Xop_" n "") "VSS"),
         .conn (.own "VDD") (.pin (fmt "Xop_" n "") "VDD"),
         .conn (.own "VCM") (.pin (fmt "Xop_" n "") "VCM")])
    ++ ((List.range N).map fun n => .add ⟨fmt "Cp_" n "", .cap C, twoPin (fmt "Cp_" n "")⟩)
    ++ ((List.range N).map fun n => .add ⟨fmt "Cn_" n "", .cap C, twoPin (fmt "Cn_" n "")⟩)
    ++ ((List.range N).flatMap fun n =>
        [.conn (.own (fmt "X" n "_P")) (.num (fmt "Cp_" n "") 1),
         .conn (.own (fmt "VGND_" n "_P")) (.num (fmt "Cp_" n "") 0),
         .conn (.own (fmt "X" n "_N")) (.num (fmt "Cn_" n "") 1),
         .conn (.own (fmt "VGND_" n "_N")) (.num (fmt "Cn_" n "") 0)])

/-- All statements of the constructor of `OpAmpFrontend`: `src/cbadc/circuit/opamp.py:42-74`. -/
def opampOps (S : Analog.Sys K) (G : ℕ → ℕ → K) (C : K) : List (Op Obj K) :=
  controlOps "OUT" S.N S.L S.M
    ++ resistorLoop "b_" "IN" S.N S.L S.B C
    ++ resistorLoop "a_" "X" S.N S.N S.A C
    ++ resistorLoop "gamma_" "OUT" S.N S.M G C
    ++ opampIntegrators S.N C

/-- The constructor `OpAmpFrontend(...)`: `src/cbadc/circuit/opamp.py:42-74`; without a control
input matrix it raises (line 160-161). -/
def opampFrontend (ids : String → ℕ → String) (S : Analog.Sys K) (C : K) : Res (Sub Obj K) :=
  match S.Gamma with
  | none => .error .exception
  | some G => Sub.run (Obj.name ids) (opampOps S G C) .empty

/-! ## The Gm-C frontend -/

/-- The terminals of `OTA`: `src/cbadc/circuit/components/ota.py:25-33`. -/
def otaPins : List String := ["VDD", "VSS", "IN_P", "IN_N", "OUT_P", "OUT_N"]

/-- `MultiInputOTA._generate_ota_coupling`: `src/cbadc/circuit/ota.py:105-129`. -/
def otaCoupling (gm : K) (e : String) (inp inn outp outn : Obj) : List (Op Obj K) :=
  [.add ⟨e, .vccs |gm|, otaPins.map (.pin e)⟩,
   .conn (.own "VSS") (.pin e "VSS"), .conn (.own "VDD") (.pin e "VDD"),
   .conn outp (.pin e "OUT_P"), .conn outn (.pin e "OUT_N")]
    ++ (if gm < 0 then [.conn inp (.pin e "IN_P"), .conn inn (.pin e "IN_N")]
        else [.conn inn (.pin e "IN_P"), .conn inp (.pin e "IN_N")])

/-- One of the three loops of the constructor of `MultiInputOTA`: `src/cbadc/circuit/ota.py:56-87`
(`"G_a_"`, sources `X{n}`; `"G_b_"`, `IN{l}`; `"G_gamma_"`, `S{m}`). -/
def otaLoop (pre src : String) (k J : ℕ) (F : ℕ → K) (C : K) : List (Op Obj K) :=
  (List.range J).flatMap fun j =>
    if F j ≠ 0 then
      otaCoupling (F j * C) (fmt2 pre k j) (.own (fmt src j "_P")) (.own (fmt src j "_N"))
        (.own (fmt "X" k "_P")) (.own (fmt "X" k "_N"))
    else []

/-- The resistors that model the finite gain: `src/cbadc/circuit/ota.py:89-103`; `none` stands for
`np.inf`.  `bmax` is `np.max(np.abs(B))`. -/
def otaGain (k : ℕ) (bmax C : K) : Option K → List (Op Obj K)
  | none => []
  | some g =>
    let r := g / (bmax * C)
    [.add ⟨"Rp", .res (2 * r), twoPin "Rp"⟩, .add ⟨"Rn", .res (2 * r), twoPin "Rn"⟩,
     .conn (.own (fmt "X" k "_P")) (.num "Rp" 0), .conn (.own (fmt "X" k "_N")) (.num "Rn" 1),
     .conn (.own "VCM") (.num "Rp" 1), .conn (.own "VCM") (.num "Rn" 0)]

/-- The terminals of `MultiInputOTA`: `src/cbadc/circuit/ota.py:46-53`. -/
def multiOtaPins (N L M : ℕ) : List String :=
  ["VSS", "VDD", "VCM"]
    ++ (List.range N).map (fmt "X" · "_P") ++ (List.range N).map (fmt "X" · "_N")
    ++ (List.range L).map (fmt "IN" · "_P") ++ (List.range L).map (fmt "IN" · "_N")
    ++ (List.range M).map (fmt "S" · "_P") ++ (List.range M).map (fmt "S" · "_N")

/-- All statements of the constructor of `MultiInputOTA`: `src/cbadc/circuit/ota.py:34-103`. -/
def multiOtaOps (S : Analog.Sys K) (G : ℕ → ℕ → K) (k : ℕ) (C bmax : K) (gain : Option K) :
    List (Op Obj K) :=
  otaLoop "G_a_" "X" k S.N (S.A k) C
    ++ otaLoop "G_b_" "IN" k S.L (S.B k) C
    ++ otaLoop "G_gamma_" "S" k S.M (G k) C
    ++ otaGain k bmax C gain

/-- The statements of `GmCFrontend._generate_integrators` for one state:
`src/cbadc/circuit/ota.py:176-213`. -/
def gmcState (N L M n : ℕ) (C : K) : List (Op Obj K) :=
  let e := fmt "Xgm" n ""
  .add ⟨e, .sub (fmt "multi_input_ota_" n ""), (multiOtaPins N L M).map (.pin e)⟩
    :: (["VSS", "VDD", "VCM"].map fun s => .conn (.own s) (.pin e s))
    ++ ((List.range N).flatMap fun j =>
        [.conn (.own (fmt "X" j "_P")) (.pin e (fmt "X" j "_P")),
         .conn (.own (fmt "X" j "_N")) (.pin e (fmt "X" j "_N"))])
    ++ ((List.range L).flatMap fun l =>
        [.conn (.own (fmt "IN" l "_P")) (.pin e (fmt "IN" l "_P")),
         .conn (.own (fmt "IN" l "_N")) (.pin e (fmt "IN" l "_N"))])
    ++ ((List.range M).flatMap fun m =>
        [.conn (.own (fmt "OUT" m "_P")) (.pin e (fmt "S" m "_P")),
         .conn (.own (fmt "OUT" m "_N")) (.pin e (fmt "S" m "_N"))])
    ++ [.add ⟨fmt "Cp_" n "", .cap (2 * C), twoPin (fmt "Cp_" n "")⟩,
        .add ⟨fmt "Cn_" n "", .cap (2 * C), twoPin (fmt "Cn_" n "")⟩,
        .conn (.own (fmt "X" n "_P")) (.num (fmt "Cp_" n "") 0),
        .conn (.own "VCM") (.num (fmt "Cp_" n "") 1),
        .conn (.own (fmt "X" n "_N")) (.num (fmt "Cn_" n "") 1),
        .conn (.own "VCM") (.num (fmt "Cn_" n "") 0)]

/-- All statements of the constructor of `GmCFrontend`: `src/cbadc/circuit/ota.py:143-213`. -/
def gmcOps (N L M : ℕ) (C : K) : List (Op Obj K) :=
  controlOps "OUT" N L M ++ ((List.range N).flatMap fun n => gmcState N L M n C)

/-- The definition of a sub-circuit as it is printed: terminals and body.
`templates/ngspice/sub_circuit_definition.cir.j2`. -/
structure Def (K : Type*) where
  ports : List String
  body : List (Line K)

/-- The definition printed for a sub-circuit with the given own terminals:
`src/cbadc/circuit/__init__.py:419-434`. -/
def Sub.definition (ids : String → ℕ → String) (ports : List String) (s : Sub Obj K) : Def K :=
  ⟨ports.map fun p => s.wires.node (Obj.name ids) (.own p), s.netlist (Obj.name ids)⟩

/-- `float(np.max(np.abs(analog_system.B)))`: `src/cbadc/circuit/ota.py:91`, for a matrix with at
least one entry (numpy raises for an empty one). -/
def absMax (N L : ℕ) (B : ℕ → ℕ → K) : K :=
  ((List.range N).flatMap fun n => (List.range L).map fun l => |B n l|).foldl max 0

/-- The constructor `MultiInputOTA(...)` followed by the printing of its definition:
`src/cbadc/circuit/ota.py:34-103`.  Without a control input matrix it raises (line 73-74), and so
does the division of line 91 when the input matrix is zero.  The couplings never raise, so these two
checks are made first. -/
def multiOta (ids : String → ℕ → String) (S : Analog.Sys K) (k : ℕ) (C : K)
    (gain : Option K) : Res (Def K) :=
  match S.Gamma with
  | none => .error .valueError
  | some G =>
    if gain ≠ none ∧ absMax S.N S.L S.B * C = 0 then .error .zeroDivision
    else
      match Sub.run (Obj.name ids) (multiOtaOps S G k C (absMax S.N S.L S.B) gain) .empty with
      | .error e => .error e
      | .ok s => .ok (s.definition ids (multiOtaPins S.N S.L S.M))

/-- The constructor `GmCFrontend(...)`: `src/cbadc/circuit/ota.py:150-213`; the result is the
sub-circuit together with the definitions of its transconductors.  The loop creates each of them
just before it is added; here they are created first, which only matters for which of two errors
would come first (adding does not raise). -/
def gmcFrontend (ids : String → ℕ → String) (S : Analog.Sys K) (C : K) (gain : Option K) :
    Res (Sub Obj K × List (Def K)) :=
  match (List.range S.N).mapM (fun n => multiOta ids S n C gain) with
  | .error e => .error e
  | .ok ds =>
    match Sub.run (Obj.name ids) (gmcOps S.N S.L S.M C) .empty with
    | .error e => .error e
    | .ok s => .ok (s, ds)

/-! ## The op-amp macro model -/

/-- All statements of the constructor of `OpAmp`: `src/cbadc/circuit/components/opamp.py:17-83`;
`twoPi` is `2 * np.pi`, `C` the internal capacitance.  The free-standing terminal `X` is `own "X"`. -/
def opampMacroOps (twoPi gbwp dcGain C : K) : List (Op Obj K) :=
  let gm := twoPi * gbwp * C
  let r := dcGain / gm
  [.add ⟨"Gota", .vccs gm, otaPins.map (.pin "Gota")⟩,
   .add ⟨"Ebuf_p", .vcvs 1, otaPins.map (.pin "Ebuf_p")⟩,
   .add ⟨"Ebuf_n", .vcvs 1, otaPins.map (.pin "Ebuf_n")⟩,
   .add ⟨"Rx", .res r, twoPin "Rx"⟩,
   .add ⟨"Cx", .cap C, twoPin "Cx"⟩,
   .conn (.own "VDD") (.pin "Gota" "VDD"), .conn (.own "VSS") (.pin "Gota" "VSS"),
   .conn (.own "VDD") (.pin "Ebuf_p" "VDD"), .conn (.own "VSS") (.pin "Ebuf_p" "VSS"),
   .conn (.own "VDD") (.pin "Ebuf_n" "VDD"), .conn (.own "VSS") (.pin "Ebuf_n" "VSS"),
   .conn (.own "IN_P") (.pin "Gota" "IN_P"), .conn (.own "IN_N") (.pin "Gota" "IN_N"),
   .conn (.own "OUT_P") (.pin "Ebuf_p" "OUT_P"), .conn (.own "VCM") (.pin "Ebuf_p" "OUT_N"),
   .conn (.own "OUT_N") (.pin "Ebuf_n" "OUT_P"), .conn (.own "VCM") (.pin "Ebuf_n" "OUT_N"),
   .conn (.own "X") (.pin "Ebuf_p" "IN_P"), .conn (.own "X") (.pin "Ebuf_n" "IN_N"),
   .conn (.own "X") (.pin "Gota" "OUT_P"),
   .conn (.own "VCM") (.pin "Ebuf_p" "IN_N"), .conn (.own "VCM") (.pin "Ebuf_n" "IN_P"),
   .conn (.own "VCM") (.pin "Gota" "OUT_N"),
   .conn (.own "X") (.num "Rx" 0), .conn (.own "X") (.num "Cx" 0),
   .conn (.own "VCM") (.num "Rx" 1), .conn (.own "VCM") (.num "Cx" 1)]

/-- The constructor `OpAmp(...)` followed by the printing of its definition:
`src/cbadc/circuit/components/opamp.py:17-83`; line 30 divides by the transconductance. -/
def opampMacro (ids : String → ℕ → String) (twoPi gbwp dcGain C : K) : Res (Def K) :=
  if twoPi * gbwp * C = 0 then .error .zeroDivision
  else match Sub.run (Obj.name ids) (opampMacroOps twoPi gbwp dcGain C) .empty with
  | .error e => .error e
  | .ok s => .ok (s.definition ids opampPins)

/-! ## The digital control -/

/-- The terminals of `DifferentialOutputClockedComparator`:
`src/cbadc/circuit/components/comparator.py:319-329`. -/
def comparatorPins : List String := ["CLK", "IN", "OUT_P", "OUT_N", "VCM"]

/-- All statements of the constructor of `MultiInputComparator`:
`src/cbadc/circuit/digital_control.py:146-278`; `GT` is `Gamma_tildeT`, `k` the row `m_tilde`, `mid`
the output offset of the summer (line 228).  The free-standing terminal `STILDE` is `own "STILDE"`. -/
def comparatorOps (S : Analog.Sys K) (GT : ℕ → ℕ → K) (m k : ℕ) (mid : K) : List (Op Obj K) :=
  let n := S.N + S.L + S.M
  [.add ⟨"As", .sum ((List.range S.N).map (GT k) ++ (List.range S.L).map (S.Bt k)
      ++ (List.range S.M).map (S.At k)) mid, (List.range (2 * n + 1)).map (.num "As")⟩,
   .conn (.own "STILDE") (.num "As" (2 * n))]
    ++ ((List.range S.N).flatMap fun i =>
        [.conn (.own (fmt "X" i "_P")) (.num "As" i),
         .conn (.own (fmt "X" i "_N")) (.num "As" (S.N + S.L + S.M + i))])
    ++ ((List.range S.L).flatMap fun i =>
        [.conn (.own (fmt "IN" i "_P")) (.num "As" (S.N + i)),
         .conn (.own (fmt "IN" i "_N")) (.num "As" (2 * S.N + S.L + S.M + i))])
    ++ ((List.range S.M).flatMap fun i =>
        [.conn (.own (fmt "S" i "_P")) (.num "As" (S.N + S.L + i)),
         .conn (.own (fmt "S" i "_N")) (.num "As" (2 * S.N + 2 * S.L + S.M + i))])
    ++ [.add ⟨"Xcomp", .sub "clocked_comparator", comparatorPins.map (.pin "Xcomp")⟩,
        .conn (.own "CLK") (.pin "Xcomp" "CLK"),
        .conn (.own "STILDE") (.pin "Xcomp" "IN"),
        .conn (.own (fmt "S" m "_P")) (.pin "Xcomp" "OUT_P"),
        .conn (.own (fmt "S" m "_N")) (.pin "Xcomp" "OUT_N"),
        .conn (.own "VCM") (.pin "Xcomp" "VCM")]

/-- The constructor `MultiInputComparator(...)` followed by the printing of its definition:
`src/cbadc/circuit/digital_control.py:146-278`.  Indexing `None` (line 237 without `Gamma_tildeT`)
and a row beyond the last one raise. -/
def multiComparator (ids : String → ℕ → String) (S : Analog.Sys K) (m k : ℕ) (mid : K) : Res (Def K) :=
  match S.GammaT with
  | none => .error .typeError
  | some GT =>
    if S.Mt ≤ k then .error .indexError
    else
      match Sub.run (Obj.name ids) (comparatorOps S GT m k mid) .empty with
      | .error e => .error e
      | .ok s => .ok (s.definition ids (controlPins S.N S.L S.M))

/-- The statements of the constructor of `DigitalControl` for the comparators `off`, ..., `M - 1`:
`src/cbadc/circuit/digital_control.py:62-110`. -/
def digitalOps (N L M Mt off : ℕ) : List (Op Obj K) :=
  ((List.range (M - off)).map fun i =>
      .add ⟨fmt "Xmic_" (off + i) "", .sub (fmt "multi_input_comparator_" (off + i) ""),
        (controlPins N L M).map (.pin (fmt "Xmic_" (off + i) ""))⟩)
    ++ ((List.range Mt).flatMap fun i =>
        (["CLK", "VSS", "VDD", "VCM"].map fun s =>
          .conn (.own s) (.pin (fmt "Xmic_" (off + i) "") s))
        ++ ((List.range N).flatMap fun n =>
          [.conn (.own (fmt "X" n "_P")) (.pin (fmt "Xmic_" (off + i) "") (fmt "X" n "_P")),
           .conn (.own (fmt "X" n "_N")) (.pin (fmt "Xmic_" (off + i) "") (fmt "X" n "_N"))])
        ++ ((List.range L).flatMap fun l =>
          [.conn (.own (fmt "IN" l "_P")) (.pin (fmt "Xmic_" (off + i) "") (fmt "IN" l "_P")),
           .conn (.own (fmt "IN" l "_N")) (.pin (fmt "Xmic_" (off + i) "") (fmt "IN" l "_N"))])
        ++ ((List.range M).flatMap fun m =>
          [.conn (.own (fmt "S" m "_P")) (.pin (fmt "Xmic_" (off + i) "") (fmt "S" m "_P")),
           .conn (.own (fmt "S" m "_N")) (.pin (fmt "Xmic_" (off + i) "") (fmt "S" m "_N"))]))

/-- The constructor `DigitalControl(..., dither_offset)`:
`src/cbadc/circuit/digital_control.py:38-110`, where `mid` stands for `(out_high - out_low) / 2 + out_low`.  The result is the sub-circuit together
with the definitions of its comparators.  The loop of line 80 looks up a comparator for each of the
`M_tilde` rows and raises if there are fewer comparators; the connections made before that are lost
with the exception, so this is checked first. -/
def digitalControl (ids : String → ℕ → String) (S : Analog.Sys K) (off : ℕ) (mid : K) :
    Res (Sub Obj K × List (Def K)) :=
  match (List.range (S.M - off)).mapM (fun i => multiComparator ids S (off + i) i mid) with
  | .error e => .error e
  | .ok ds =>
    if S.M - off < S.Mt then .error .indexError
    else
      match Sub.run (Obj.name ids) (digitalOps S.N S.L S.M S.Mt off) .empty with
      | .error e => .error e
      | .ok s => .ok (s, ds)

/-- The terminals of `AnalogDelay`: `src/cbadc/circuit/components/analog_delay.py:33-37`. -/
def delayPins : List String := ["IN", "OUT", "CNTRL"]

/-- The statements of the constructor of `MultiPhaseDigitalControl` for the controls `off`, ..., `M - 1`:
`src/cbadc/circuit/digital_control.py:586-657`; `t0 m` is the start of the impulse response of control `m`.  The
free-standing terminals `CLK_{m}` (lines 607-609) are `own "CLK_{m}"`. -/
def multiPhaseOps (N L M Mt off : ℕ) (t0 : ℕ → K) : List (Op Obj K) :=
  ((List.range (M - off)).map fun i =>
      .add ⟨fmt "Xmic_" (off + i) "", .sub (fmt "multi_input_comparator_" (off + i) ""),
        (controlPins N L M).map (.pin (fmt "Xmic_" (off + i) ""))⟩)
    ++ ((List.range (M - off)).map fun i =>
      .add ⟨fmt "A_delay_" (off + i) "", .delay (t0 (off + i)), delayPins.map (.pin (fmt "A_delay_" (off + i) ""))⟩)
    ++ ((List.range Mt).flatMap fun i =>
        [.conn (.own "CLK") (.pin (fmt "A_delay_" (off + i) "") "IN"),
         .conn (.own "VDD") (.pin (fmt "A_delay_" (off + i) "") "CNTRL"),
         .conn (.own (fmt "CLK_" (off + i) "")) (.pin (fmt "A_delay_" (off + i) "") "OUT"),
         .conn (.own (fmt "CLK_" (off + i) "")) (.pin (fmt "Xmic_" (off + i) "") "CLK"),
         .conn (.own "VSS") (.pin (fmt "Xmic_" (off + i) "") "VSS"),
         .conn (.own "VDD") (.pin (fmt "Xmic_" (off + i) "") "VDD"),
         .conn (.own "VCM") (.pin (fmt "Xmic_" (off + i) "") "VCM")]
        ++ ((List.range N).flatMap fun n =>
          [.conn (.own (fmt "X" n "_P")) (.pin (fmt "Xmic_" (off + i) "") (fmt "X" n "_P")),
           .conn (.own (fmt "X" n "_N")) (.pin (fmt "Xmic_" (off + i) "") (fmt "X" n "_N"))])
        ++ ((List.range L).flatMap fun l =>
          [.conn (.own (fmt "IN" l "_P")) (.pin (fmt "Xmic_" (off + i) "") (fmt "IN" l "_P")),
           .conn (.own (fmt "IN" l "_N")) (.pin (fmt "Xmic_" (off + i) "") (fmt "IN" l "_N"))])
        ++ ((List.range M).flatMap fun m =>
          [.conn (.own (fmt "S" m "_P")) (.pin (fmt "Xmic_" (off + i) "") (fmt "S" m "_P")),
           .conn (.own (fmt "S" m "_N")) (.pin (fmt "Xmic_" (off + i) "") (fmt "S" m "_N"))]))

/-- The constructor `MultiPhaseDigitalControl(..., dither_offset)`:
`src/cbadc/circuit/digital_control.py:563-657`; `t0` are the starts of the impulse responses of the digital control
it is given, line 617 indexes them with the number of the control.  The lookups of lines 624-627 are checked
first, as in `digitalControl`. -/
def multiPhaseControl (ids : String → ℕ → String) (S : Analog.Sys K) (off : ℕ) (mid : K) (t0 : List K) :
    Res (Sub Obj K × List (Def K)) :=
  match (List.range (S.M - off)).mapM (fun i => multiComparator ids S (off + i) i mid) with
  | .error e => .error e
  | .ok ds =>
    if ∃ i < S.M - off, t0.length ≤ off + i then .error .indexError
    else if S.M - off < S.Mt then .error .indexError
    else
      match Sub.run (Obj.name ids) (multiPhaseOps S.N S.L S.M S.Mt off fun m => t0.getD m 0) .empty with
      | .error e => .error e
      | .ok s => .ok (s, ds)

/-- The choice between the two controls: `src/cbadc/circuit/digital_control.py:484-507`, with the offset of the
dither control, and `src/cbadc/circuit/analog_frontend.py:74-93`, with offset zero; `_mulit_phase` is set by
`src/cbadc/digital_control/digital_control.py:107`. -/
def nominalControl (ids : String → ℕ → String) (S : Analog.Sys K) (off : ℕ) (mid : K) (t0 : List K) :
    Res (Sub Obj K × List (Def K)) :=
  if 0 < t0.sum then multiPhaseControl ids S off mid t0 else digitalControl ids S off mid

/-! ## The clocked comparators -/

/-- The terminals of `D_FLIP_FLOP`: `src/cbadc/circuit/components/comparator.py:149-157`. -/
def flipFlopPins : List String := ["IN", "CLK", "SET", "RES", "F_OUT_P", "F_OUT_N"]

/-- The statements of the constructor of `DifferentialOutputClockedComparator`:
`src/cbadc/circuit/components/comparator.py:331-393`.  An `ADCBridgeRelative`, printed with the differential
input `%vd(IN,VCM)` (lines 64-68), is the device `adc_vd`.  The arguments `clk_offset` and `t_tolerance` are not
used by the code. -/
def clockedOps : List (Op Obj K) :=
  [.add ⟨"Aclk_adc", .other "adc_vd", ["IN", "OUT", "VCM"].map (.pin "Aclk_adc")⟩,
   .add ⟨"Ain_adc", .other "adc_vd", ["IN", "OUT", "VCM"].map (.pin "Ain_adc")⟩,
   .add ⟨"Adffp", .other "dflip", flipFlopPins.map (.pin "Adffp")⟩,
   .add ⟨"Adac_p", .other "dac", ["IN", "OUT"].map (.pin "Adac_p")⟩,
   .add ⟨"Adac_n", .other "dac", ["IN", "OUT"].map (.pin "Adac_n")⟩,
   .conn (.own "CLK") (.pin "Aclk_adc" "IN"),
   .conn (.own "VCM") (.pin "Aclk_adc" "VCM"),
   .conn (.own "IN") (.pin "Ain_adc" "IN"),
   .conn (.own "VCM") (.pin "Ain_adc" "VCM"),
   .conn (.own "OUT_P") (.pin "Adac_p" "OUT"),
   .conn (.own "OUT_N") (.pin "Adac_n" "OUT"),
   .conn (.own "CLKD") (.pin "Adffp" "CLK"),
   .conn (.own "CLKD") (.pin "Aclk_adc" "OUT"),
   .conn (.pin "Ain_adc" "OUT") (.pin "Adffp" "IN"),
   .conn (.pin "Adffp" "F_OUT_P") (.pin "Adac_p" "IN"),
   .conn (.pin "Adffp" "F_OUT_N") (.pin "Adac_n" "IN")]

/-- The constructor `DifferentialOutputClockedComparator(...)` followed by the printing of its definition:
`src/cbadc/circuit/components/comparator.py:297-393`. -/
def clockedComparator (ids : String → ℕ → String) : Res (Def K) :=
  match Sub.run (Obj.name ids) (clockedOps : List (Op Obj K)) .empty with
  | .error e => .error e
  | .ok s => .ok (s.definition ids comparatorPins)

/-- The terminals of `ClockedComparator`: `src/cbadc/circuit/components/comparator.py:205`. -/
def singlePins : List String := ["CLK", "VCM", "IN", "OUT"]

/-- The statements of the constructor of `ClockedComparator`:
`src/cbadc/circuit/components/comparator.py:208-258`. -/
def singleOps : List (Op Obj K) :=
  [.add ⟨"Aclk_adc", .other "adc_vd", ["IN", "OUT", "VCM"].map (.pin "Aclk_adc")⟩,
   .add ⟨"Ain_adc", .other "adc_vd", ["IN", "OUT", "VCM"].map (.pin "Ain_adc")⟩,
   .add ⟨"Adffp", .other "dflip", flipFlopPins.map (.pin "Adffp")⟩,
   .add ⟨"Adac", .other "dac", ["IN", "OUT"].map (.pin "Adac")⟩,
   .conn (.own "CLK") (.pin "Aclk_adc" "IN"),
   .conn (.own "VCM") (.pin "Aclk_adc" "VCM"),
   .conn (.own "IN") (.pin "Ain_adc" "IN"),
   .conn (.own "VCM") (.pin "Ain_adc" "VCM"),
   .conn (.own "OUT") (.pin "Adac" "OUT"),
   .conn (.own "CLKD") (.pin "Adffp" "CLK"),
   .conn (.own "CLKD") (.pin "Aclk_adc" "OUT"),
   .conn (.pin "Ain_adc" "OUT") (.pin "Adffp" "IN"),
   .conn (.pin "Adffp" "F_OUT_P") (.pin "Adac" "IN")]

/-- The constructor `ClockedComparator(...)` followed by the printing of its definition:
`src/cbadc/circuit/components/comparator.py:180-258`. -/
def singleComparator (ids : String → ℕ → String) : Res (Def K) :=
  match Sub.run (Obj.name ids) (singleOps : List (Op Obj K)) .empty with
  | .error e => .error e
  | .ok s => .ok (s.definition ids singlePins)

/-! ## The dither control -/

/-- `DitherControl._generate_dither_controls`: `src/cbadc/circuit/digital_control.py:379-472`, for
`R` random controls. -/
def ditherOps (R : ℕ) : List (Op Obj K) :=
  [.add ⟨"Ars", .other "r_source", (List.range R).map (fun m => .pin "Ars" (fmt "S_" m ""))⟩,
   .add ⟨"Aclk_adc", .other "adc", ["IN", "OUT", "VCM"].map (.pin "Aclk_adc")⟩]
    ++ ((List.range R).map fun m =>
        .add ⟨fmt "Adffp_" m "", .other "dflip", flipFlopPins.map (.pin (fmt "Adffp_" m ""))⟩)
    ++ ((List.range R).map fun m =>
        .add ⟨fmt "Adac_p_" m "", .other "dac", ["IN", "OUT"].map (.pin (fmt "Adac_p_" m ""))⟩)
    ++ ((List.range R).map fun m =>
        .add ⟨fmt "Adac_n_" m "", .other "dac", ["IN", "OUT"].map (.pin (fmt "Adac_n_" m ""))⟩)
    ++ [.conn (.own "CLK") (.pin "Aclk_adc" "IN")]
    ++ ((List.range R).flatMap fun m =>
        [.conn (.own (fmt "RS_" m "")) (.pin "Ars" (fmt "S_" m "")),
         .conn (.own (fmt "RS_" m "")) (.pin (fmt "Adffp_" m "") "IN"),
         .conn (.pin "Aclk_adc" "OUT") (.pin (fmt "Adffp_" m "") "CLK"),
         .conn (.pin (fmt "Adffp_" m "") "F_OUT_P") (.pin (fmt "Adac_p_" m "") "IN"),
         .conn (.pin (fmt "Adffp_" m "") "F_OUT_N") (.pin (fmt "Adac_n_" m "") "IN"),
         .conn (.own (fmt "S" m "_P")) (.pin (fmt "Adac_p_" m "") "OUT"),
         .conn (.own (fmt "S" m "_N")) (.pin (fmt "Adac_n_" m "") "OUT")])

/-- All statements of the constructor of `DitherControl`:
`src/cbadc/circuit/digital_control.py:322-377`. -/
def ditherControlOps (N L M R : ℕ) : List (Op Obj K) :=
  controlOps "S" N L M ++ ditherOps R

end Frontends

end Cbadc.Circuit
