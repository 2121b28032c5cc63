import Mathlib.Algebra.Ring.Defs
import Mathlib.Data.Nat.Notation
import Verif.Model.NetlistText

/-!
# Model of the printed components

The constructors in `src/cbadc/circuit/components/` followed by `get_ngspice` / `get_spectre`, and the templates in
`src/cbadc/circuit/templates/ngspice/` and `templates/spectre/`.  A text is a list of characters.  An argument of type
`SPICE_VALUE` is given by its `str`; where the code calculates with it, it is a number and `fmt` is `str`.
-/

namespace Cbadc.Cards

open Cbadc.NetlistText (Text lower)

/-- The components with their arguments: `src/cbadc/circuit/components/passives.py:20-35`, `73-88`,
`126-137`, `sources.py:8-25`, `57-80`, `119-145`, `ota.py:14-41`, `vcvs.py:13-40`, `voltage_buffer.py:15-40`,
`cmos.py:7-42`, `58-94`, `integrator.py:7-35`, `summer.py:8-39`, `73-110`, `comparator.py:20-51`, `80-111`, `128-166`,
`reference_source.py:17-37`, `observer.py:13-39`, `analog_delay.py:18-46` and a sub-circuit,
`src/cbadc/circuit/__init__.py:347-374`.  Of the components with a model only the arguments that are printed on their
own line are kept; their other arguments are those of the model.  `n` is the number of inputs. -/
inductive Component (K : Type)
  | resistor (name r : Text)
  | capacitor (name c : Text)
  | inductor (name l : Text)
  | dcSource (name v : Text)
  | pulse (name val0 val1 : Text) (period rise fall : K)
  | sine (name offset amplitude frequency phase delay damping ac : Text)
  | ota (name model gm : Text)
  | vcvs (name model value : Text)
  | buffer (name model : Text)
  | mosfet (name model w l : Text)
  | integrator (name model : Text)
  | summer (name model : Text) (n : ℕ)
  | diffSummer (name model : Text) (n : ℕ)
  | adcRelative (name model : Text)
  | adcAbsolute (name model : Text)
  | dac (name model : Text)
  | flipFlop (name model : Text)
  | reference (name model : Text) (n : ℕ)
  | observer (name model : Text) (n : ℕ)
  | delay (name model : Text)
  | sub (name subckt : Text) (terminals : ℕ) (parameters : List (Text × Text))

/-- The number of terminals the constructor creates: see `Component` for the lines. -/
def Component.pins {K : Type} : Component K → ℕ
  | .resistor .. | .capacitor .. | .inductor .. | .dcSource .. | .pulse .. | .sine .. => 2
  | .ota .. | .vcvs .. | .buffer .. => 6
  | .mosfet .. => 4
  | .integrator .. => 2
  | .summer _ _ n => n + 2
  | .diffSummer _ _ n => 2 * n + 1
  | .adcRelative .. | .adcAbsolute .. => 3
  | .dac .. => 2
  | .flipFlop .. => 6
  | .reference _ _ n => n
  | .observer _ _ n => n + 1
  | .delay .. => 3
  | .sub _ _ n _ => n

/-- `instance_name[0] + instance_name[1:].lower()`: `src/cbadc/circuit/__init__.py:210`. -/
def lowerTail : Text → Text
  | [] => []
  | c :: cs => c :: lower cs

/-- The instance name: the check and the prefix of the constructors, e.g.
`src/cbadc/circuit/components/passives.py:25-28`, and `src/cbadc/circuit/__init__.py:208-210`. -/
def instanceName (letter : Char) (e : Exc) : Text → Res Text
  | [] => .error e
  | c :: cs => .ok (lowerTail (if c ≠ letter then letter :: c :: cs else c :: cs))

/-- The letter a component's name starts with: `src/cbadc/circuit/components/passives.py:27`, `80`, `133`,
`sources.py:18`, `68`, `132`, `ota.py:22`, `vcvs.py:21`, `voltage_buffer.py:23`, `cmos.py:21`, `72`, `integrator.py:20`,
`summer.py:21`, `86`, `comparator.py:32`, `94`, `142`, `reference_source.py:28`, `observer.py:25`, `analog_delay.py:28`,
`src/cbadc/circuit/__init__.py:360-361`. -/
def Component.letter {K : Type} : Component K → Char
  | .resistor .. => 'R'
  | .capacitor .. => 'C'
  | .inductor .. => 'L'
  | .dcSource .. | .pulse .. | .sine .. => 'V'
  | .ota .. => 'G'
  | .vcvs .. | .buffer .. => 'E'
  | .mosfet .. => 'M'
  | .sub .. => 'X'
  | _ => 'A'

/-- The first argument of the constructors: see `Component` for the lines. -/
def Component.given {K : Type} : Component K → Text
  | .resistor n _ | .capacitor n _ | .inductor n _ | .dcSource n _ => n
  | .pulse n _ _ _ _ _ => n
  | .sine n _ _ _ _ _ _ _ => n
  | .ota n _ _ | .vcvs n _ _ => n
  | .buffer n _ => n
  | .mosfet n _ _ _ => n
  | .integrator n _ | .adcRelative n _ | .adcAbsolute n _ | .dac n _ | .flipFlop n _ | .delay n _ => n
  | .summer n _ _ | .diffSummer n _ _ | .reference n _ _ | .observer n _ _ => n
  | .sub n _ _ _ => n

/-- What the constructor checks: the name, `src/cbadc/circuit/components/passives.py:25-26` (`TypeError`) or
`src/cbadc/circuit/__init__.py:356-357` (`ValueError`), `float(gm)` and `float(value)`, `ota.py:38-41`,
`vcvs.py:37-40`, and the name of a sub-circuit, `src/cbadc/circuit/__init__.py:372-373`.  `isFloat` tells which texts
`float` accepts. -/
def Component.create {K : Type} (isFloat : Text → Bool) (c : Component K) : Res Text :=
  match instanceName c.letter (match c with | .sub .. => .valueError | _ => .typeError) c.given with
  | .error e => .error e
  | .ok name =>
    match c with
    | .ota _ _ gm => if isFloat gm then .ok name else .error .valueError
    | .vcvs _ _ v => if isFloat v then .ok name else .error .valueError
    | .sub _ s _ _ => if s = [] then .error .valueError else .ok name
    | _ => .ok name

/-- Words with a blank in between: the lines of the templates, e.g. `templates/ngspice/capacitor.cir.j2:2`. -/
def words : List Text → Text
  | [] => []
  | [w] => w
  | w :: ws => w ++ ' ' :: words ws

/-- `{{ key }}={{ value }}`: `templates/ngspice/mosfet.cir.j2:2`, `templates/ngspice/model.cir.j2:2`. -/
def keyValue (p : Text × Text) : Text := p.1 ++ '=' :: p.2

/-- A list in brackets: `src/cbadc/circuit/components/__init__.py:6-13`, `summer.py:48`, `125`, `comparator.py:68`,
`76`, `reference_source.py:87`. -/
def bracket (l : List Text) : Text := '[' :: words l ++ [']']

/-- `f"%vd({a},{b})"`: `src/cbadc/circuit/components/summer.py:46`, `118`, `comparator.py:68`. -/
def vd (a b : Text) : Text := "%vd(".toList ++ a ++ ',' :: b ++ [')']

/-- The loop `{% for key, value in parameters %}` of `templates/ngspice/sub_circuit.cir.j2:2`: it runs over the keys of
the dictionary (`src/cbadc/circuit/__init__.py:385`), and a key is unpacked into its characters. -/
def loopKeys : List (Text × Text) → Res Text
  | [] => .ok []
  | (k, _) :: ps =>
    match k with
    | [a, b] =>
      match loopKeys ps with
      | .error e => .error e
      | .ok t => .ok (' ' :: a :: '=' :: b :: t)
    | _ => .error .valueError

/-- The list of nets an xspice device is printed with: `src/cbadc/circuit/components/summer.py:41-48`, `112-125`,
`comparator.py:64-76`, `117-119`, `reference_source.py:83-87` and, for the devices without brackets,
`integrator.py:41`, `comparator.py:172`, `observer.py:45`, `analog_delay.py:52`. -/
def Component.ports {K : Type} (c : Component K) (nets : List Text) : List Text :=
  match c with
  | .summer _ _ _ =>
    [bracket ((nets.take (nets.length - 2)).map fun a => vd a (nets.getD (nets.length - 1) [])),
      nets.getD (nets.length - 2) []]
  | .diffSummer _ _ n =>
    [bracket ((nets.take n).zipWith vd ((nets.drop n).take n)), nets.getD (nets.length - 1) []]
  | .adcRelative .. => [bracket [vd (nets.getD 0 []) (nets.getD 2 [])], bracket [nets.getD 1 []]]
  | .adcAbsolute .. => [bracket [nets.getD 0 []], bracket [nets.getD 1 []]]
  | .dac .. => [bracket (nets.take (nets.length - 1)), bracket [nets.getD (nets.length - 1) []]]
  | .reference .. => [bracket nets]
  | _ => nets

/-- The line of a component, `get_ngspice` after the comments: the second lines of `templates/ngspice/*.cir.j2` and
what they are rendered with, `src/cbadc/circuit/components/passives.py:37-45`, `90-98`, `139-147`, `sources.py:27-35`,
`82-95`, `147-160`, `ota.py:43-51`, `vcvs.py:42-50`, `voltage_buffer.py:42-49`, `cmos.py:44-54`, `integrator.py:37-46`,
`summer.py:50-59`, `127-136`, `comparator.py:53-62`, `113-124`, `168-177`, `reference_source.py:72-81`,
`observer.py:41-50`, `analog_delay.py:48-57`, `src/cbadc/circuit/__init__.py:378-387`.  The dictionary of parameters of
the xspice devices is empty.  `model_name` and `subckt_name` are in lower case,
`src/cbadc/circuit/__init__.py:143`, `374`. -/
def Component.line {K : Type} [Ring K] (half : K) (fmt : K → Text) (c : Component K) (name : Text)
    (nets : List Text) : Res Text :=
  let t := fun i => nets.getD i []
  match c with
  | .resistor _ r => .ok (words [name, t 0, t 1, keyValue (['r'], r)])
  | .capacitor _ v | .inductor _ v => .ok (words [name, t 0, t 1, v])
  | .dcSource _ v => .ok (words [name, t 0, t 1, "DC".toList, v])
  | .pulse _ v0 v1 period rise fall =>
    .ok (words [name, t 0, t 1, "PULSE(".toList ++ words [v0, v1, "0.0".toList, fmt rise, fmt fall,
      fmt (period * half - fall), fmt period] ++ [')'], "DC".toList, "0.0".toList])
  | .sine _ o a f ph d θ ac =>
    .ok (words [name, t 0, t 1, "SIN(".toList ++ words [o, a, f, d, θ, ph] ++ [')'], "DC".toList, "0.0".toList,
      "AC".toList, ac])
  | .ota _ _ v | .vcvs _ _ v => .ok (words [name, t 4, t 5, t 2, t 3, v])
  | .buffer _ _ => .ok (words [name, t 4, t 5, t 2, t 3, "1.0".toList])
  | .mosfet _ m w l =>
    .ok (words [name, t 0, t 1, t 2, t 3, lower m, words [keyValue (['W'], w), keyValue (['L'], l)]])
  | .sub _ s _ ps =>
    match loopKeys ps with
    | .error e => .error e
    | .ok p => .ok (words (name :: nets ++ [lower s]) ++ p)
  | .integrator _ m | .adcRelative _ m | .adcAbsolute _ m | .dac _ m | .flipFlop _ m | .delay _ m
  | .summer _ m _ | .diffSummer _ m _ | .reference _ m _ | .observer _ m _ =>
    .ok (words (name :: c.ports nets ++ [lower m]))

/-- The comments in front of a line: `templates/comment.cir.j2`. -/
def commentText (comments : List Text) : Text := comments.flatMap fun c => "* ".toList ++ c ++ ['\n']

/-- The constructor followed by `get_ngspice(connections)`; `nets` are the names of the nets at the terminals,
`src/cbadc/circuit/__init__.py:233-245`.  The comments of a sub-circuit are not printed,
`src/cbadc/circuit/__init__.py:380-387`. -/
def Component.ngspice {K : Type} [Ring K] (half : K) (fmt : K → Text) (isFloat : Text → Bool) (c : Component K)
    (comments : List Text) (nets : List Text) : Res Text :=
  match c.create isFloat with
  | .error e => .error e
  | .ok name =>
    match c.line half fmt name nets with
    | .error e => .error e
    | .ok l =>
      match c with
      | .sub .. => .ok l
      | _ => .ok (commentText comments ++ l)

/-- A parameter of a model: a value or a list of values, printed by `str`. -/
inductive Val
  | one (t : Text)
  | list (ts : List Text)

/-- `str` of a list: `[a, b]`.  `src/cbadc/circuit/models/summer.py:37-42`. -/
def commaList : List Text → Text
  | [] => []
  | [w] => w
  | w :: ws => w ++ ',' :: ' ' :: commaList ws

/-- The text of a parameter's value: `templates/ngspice/model.cir.j2:2`. -/
def Val.text : Val → Text
  | .one t => t
  | .list ts => '[' :: commaList ts ++ [']']

/-- A model: `templates/ngspice/model.cir.j2`, rendered by e.g. `src/cbadc/circuit/models/comparator.py:26-33`,
`summer.py:32-44`, `cmos.py:33-48`, `integrator.py:33-40`, `analog_delay.py:24-31`; `model_name.lower()`,
`src/cbadc/circuit/__init__.py:143`.  The models' comments are not printed. -/
def modelText (name type : Text) (ps : List (Text × Val)) : Text :=
  words [".model".toList, lower name,
    type ++ '(' :: words (ps.map fun p => keyValue (p.1, p.2.text)) ++ [')']]

/-- `PulseVoltageSource.get_spectre`: `src/cbadc/circuit/components/sources.py:97-108` and
`templates/spectre/pulse_voltage_source.cir.j2`; names that are not given are printed as nothing. -/
def spectrePulse {K : Type} [Ring K] (half : K) (fmt : K → Text) (name v0 v1 : Text) (period _rise fall : K)
    (nets : List Text) : Text :=
  words ['V' :: name, nets.getD 0 [], nets.getD 1 [], "vsource".toList, "type=pulse".toList,
    keyValue ("val0".toList, v0), keyValue ("val1".toList, v1),
    keyValue ("period".toList, fmt (period * half - fall)), keyValue ("delay".toList, []),
    keyValue ("rise".toList, []), keyValue ("fall".toList, []), keyValue ("width".toList, []),
    keyValue ("phase".toList, []), []]

end Cbadc.Cards
