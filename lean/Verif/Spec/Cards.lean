import Verif.Model.Cards

/-!
# How ngspice reads a netlist

A reader for the lines of a netlist after the ngspice manual: a line is cut into words at blanks, the characters
`[ ] ( ) , =` are words of their own, a semicolon ends the line, a star in front makes it a comment, the first letter of
an element line tells what it is and its other words what it is connected to.  Continuation lines are not read.
-/

namespace Cbadc.Cards

open Cbadc.NetlistText (Text lower upper)

/-- the characters that are words of their own -/
def isMark (c : Char) : Bool := c ∈ ['[', ']', '(', ')', ',', '=']

/-- blanks within a line -/
def isBlank (c : Char) : Bool := c ∈ [' ', '\t', '\r']

/-- a finished word -/
def flush (cur : Text) : List Text := if cur = [] then [] else [cur]

/-- the words of a line, `cur` being the beginning of the first one -/
def wordsFrom (cur : Text) : Text → List Text
  | [] => flush cur
  | c :: cs =>
    if c = ';' then flush cur
    else if isBlank c then flush cur ++ wordsFrom [] cs
    else if isMark c then flush cur ++ [c] :: wordsFrom [] cs
    else wordsFrom (cur ++ [c]) cs

/-- the words of a line -/
def wordsOf (t : Text) : List Text := wordsFrom [] t

/-- the lines of a text, `cur` being the beginning of the first one -/
def linesFrom (cur : Text) : Text → List Text
  | [] => [cur]
  | c :: cs => if c = '\n' then cur :: linesFrom [] cs else linesFrom (cur ++ [c]) cs

/-- the lines of a text -/
def linesOf (t : Text) : List Text := linesFrom [] t

/-- one signal of an xspice device: a net or the voltage between two -/
inductive Sig
  | net (a : Text)
  | diff (a b : Text)
deriving DecidableEq

/-- one port of an xspice device: a signal or a vector of them -/
inductive PortOf
  | one (s : Sig)
  | vec (l : List Sig)
deriving DecidableEq

/-- the waveform of a source -/
inductive Wave
  | dc (v : Text)
  | pulse (low high delay rise fall width period dc : Text)
  | sin (offset amplitude frequency delay damping phase dc ac : Text)
deriving DecidableEq

/-- what a line of a netlist says -/
inductive Stmt
  /-- resistor, capacitor or inductor between two nets -/
  | passive (letter : Char) (name a b value : Text)
  /-- voltage source from `a` to `b` -/
  | source (name a b : Text) (wave : Wave)
  /-- `E`: the voltage from `a` to `b` is `value` times the one from `c` to `d`; `G`: the current -/
  | controlled (letter : Char) (name a b c d value : Text)
  /-- transistor: drain, gate, source, bulk -/
  | mos (name d g s b model : Text) (params : List (Text × Text))
  /-- xspice device -/
  | device (name : Text) (ports : List PortOf) (model : Text)
  /-- instance of a sub-circuit -/
  | inst (name : Text) (nets : List Text) (subckt : Text) (params : List (Text × Text))
  /-- model -/
  | model (name type : Text) (params : List (Text × List Text))
  /-- beginning of a definition -/
  | subckt (name : Text) (terminals : List Text)
  /-- end of a definition -/
  | ends (name : Text)
deriving DecidableEq

/-- `key = value key = value …` -/
def readParams : List Text → Option (List (Text × Text))
  | [] => some []
  | k :: e :: v :: r => if e = ['='] then (readParams r).map ((k, v) :: ·) else none
  | _ => none

/-- the ports of an xspice device and the name of its model; `v` is the vector being read -/
def readPorts (v : Option (List Sig)) : List Text → Option (List PortOf × Text)
  | [] => none
  | [t] => if v = none then some ([], t) else none
  | t :: u :: r =>
    match v with
    | none =>
      if t = ['['] then readPorts (some []) (u :: r)
      else if t = "%vd".toList then
        match u, r with
        | ['('], a :: [','] :: b :: [')'] :: r => (readPorts none r).map fun p => (.one (.diff a b) :: p.1, p.2)
        | _, _ => none
      else (readPorts none (u :: r)).map fun p => (.one (.net t) :: p.1, p.2)
    | some l =>
      if t = [']'] then (readPorts none (u :: r)).map fun p => (.vec l :: p.1, p.2)
      else if t = "%vd".toList then
        match u, r with
        | ['('], a :: [','] :: b :: [')'] :: r => readPorts (some (l ++ [.diff a b])) r
        | _, _ => none
      else readPorts (some (l ++ [.net t])) (u :: r)

/-- the nets of an instance, the name of its definition and its parameters -/
def readInst (acc : List Text) : List Text → Option (List Text × Text × List (Text × Text))
  | [] => none
  | [s] => some (acc, s, [])
  | s :: k :: r =>
    if r.head? = some ['='] then (readParams (k :: r)).map fun p => (acc, s, p) else readInst (acc ++ [s]) (k :: r)

/-- the parameters of a model up to the closing parenthesis; `v` is the vector being read -/
def readModel (v : Option (Text × List Text)) : List Text → Option (List (Text × List Text))
  | [] => none
  | t :: r =>
    match v with
    | some (k, l) =>
      if t = [']'] then (readModel none r).map ((k, l) :: ·)
      else if t = [','] then readModel (some (k, l)) r
      else readModel (some (k, l ++ [t])) r
    | none =>
      if t = [')'] then (if r = [] then some [] else none)
      else
        match r with
        | e :: x :: r =>
          if e = ['='] then
            if x = ['['] then readModel (some (t, [])) r else (readModel none r).map ((t, [x]) :: ·)
          else none
        | _ => none

/-- the value of a passive: given as it is or after its letter -/
def readValue (letter : Char) : List Text → Option Text
  | [v] => some v
  | [k, e, v] => if upper k = [letter] ∧ e = ['='] then some v else none
  | _ => none

/-- the waveform of a source -/
def readWave : List Text → Option Wave
  | [k, v] => if upper k = "DC".toList then some (.dc v) else none
  | [k, ['('], a, b, c, d, e, f, g, [')'], dc, v] =>
    if upper k = "PULSE".toList ∧ upper dc = "DC".toList then some (.pulse a b c d e f g v) else none
  | [k, ['('], a, b, c, d, e, f, [')'], dc, v, ac, w] =>
    if upper k = "SIN".toList ∧ upper dc = "DC".toList ∧ upper ac = "AC".toList then some (.sin a b c d e f v w) else none
  | _ => none

/-- the words of an element line -/
def readElement (name : Text) (c : Char) (r : List Text) : Option Stmt :=
  if c = 'R' ∨ c = 'C' ∨ c = 'L' then
    match r with
    | a :: b :: v => (readValue c v).map (.passive c name a b ·)
    | _ => none
  else if c = 'V' then
    match r with
    | a :: b :: w => (readWave w).map (.source name a b ·)
    | _ => none
  else if c = 'E' ∨ c = 'G' then
    match r with
    | [a, b, c', d, v] => some (.controlled c name a b c' d v)
    | _ => none
  else if c = 'M' then
    match r with
    | d :: g :: s :: b :: m :: ps => (readParams ps).map (.mos name d g s b m ·)
    | _ => none
  else if c = 'A' then (readPorts none r).map fun p => .device name p.1 p.2
  else if c = 'X' then (readInst [] r).map fun p => .inst name p.1 p.2.1 p.2.2
  else none

/-- the words of a line that begins with a dot -/
def readDot (w : Text) (r : List Text) : Option Stmt :=
  if upper w = ".MODEL".toList then
    match r with
    | n :: t :: ['('] :: ps => (readModel none ps).map (.model n t ·)
    | _ => none
  else if upper w = ".SUBCKT".toList then
    match r with
    | n :: ts => some (.subckt n ts)
    | _ => none
  else if upper w = ".ENDS".toList then
    match r with
    | [n] => some (.ends n)
    | _ => none
  else none

/-- a line: `none` if it cannot be read, nothing if it is empty or a comment -/
def readLine (t : Text) : Option (List Stmt) :=
  match wordsOf t with
  | [] => some []
  | [] :: _ => none
  | (c :: cs) :: r =>
    if c = '*' then some []
    else if c = '.' then (readDot (c :: cs) r).map ([·])
    else (readElement (c :: cs) c.toUpper r).map ([·])

/-- lines one after the other -/
def readLines : List Text → Option (List Stmt)
  | [] => some []
  | l :: ls =>
    match readLine l, readLines ls with
    | some a, some b => some (a ++ b)
    | _, _ => none

/-- a netlist -/
def readText (t : Text) : Option (List Stmt) := readLines (linesOf t)

/-! ## What the user asked for -/

/-- A text that is one word. -/
def Word (t : Text) : Prop := t ≠ [] ∧ ∀ c ∈ t, c ≠ ';' ∧ c ≠ '\n' ∧ isBlank c = false ∧ isMark c = false

instance (t : Text) : Decidable (Word t) := inferInstanceAs (Decidable (_ ∧ _))

/-- A word that can be the name of a net. -/
def NetName (t : Text) : Prop := Word t ∧ t ≠ "%vd".toList

instance (t : Text) : Decidable (NetName t) := inferInstanceAs (Decidable (_ ∧ _))

/-- The name of a component: the given one, with the letter of its type in front unless it begins with it; capitals
after the first character do not count. -/
def nameOf (letter : Char) (given : Text) : Text :=
  letter :: lower (if given.head? = some letter then given.tail else given)

/-- The texts among the arguments of a component. -/
def Component.texts {K : Type} [Ring K] (half : K) (fmt : K → Text) : Component K → List Text
  | .resistor n v | .capacitor n v | .inductor n v | .dcSource n v => [n, v]
  | .pulse n a b p r f => [n, a, b, fmt r, fmt f, fmt (p * half - f), fmt p]
  | .sine n a b c d e f g => [n, a, b, c, d, e, f, g]
  | .ota n m v | .vcvs n m v => [n, m, v]
  | .buffer n m => [n, m]
  | .mosfet n m w l => [n, m, w, l]
  | .integrator n m | .adcRelative n m | .adcAbsolute n m | .dac n m | .flipFlop n m | .delay n m
  | .summer n m _ | .diffSummer n m _ | .reference n m _ | .observer n m _ => [n, m]
  | .sub n s _ ps => n :: s :: ps.flatMap fun p => [p.1, p.2]

/-- The element the user asked for, `t i` being the net at its terminal `i`. -/
def Component.asked {K : Type} [Ring K] (half : K) (fmt : K → Text) (t : ℕ → Text) : Component K → Stmt
  | .resistor n r => .passive 'R' (nameOf 'R' n) (t 0) (t 1) r
  | .capacitor n c => .passive 'C' (nameOf 'C' n) (t 0) (t 1) c
  | .inductor n l => .passive 'L' (nameOf 'L' n) (t 0) (t 1) l
  | .dcSource n v => .source (nameOf 'V' n) (t 0) (t 1) (.dc v)
  | .pulse n a b p r f =>
    .source (nameOf 'V' n) (t 0) (t 1)
      (.pulse a b "0.0".toList (fmt r) (fmt f) (fmt (p * half - f)) (fmt p) "0.0".toList)
  | .sine n o a f ph d θ ac =>
    .source (nameOf 'V' n) (t 0) (t 1) (.sin o a f d θ ph "0.0".toList ac)
  | .ota n _ v => .controlled 'G' (nameOf 'G' n) (t 4) (t 5) (t 2) (t 3) v
  | .vcvs n _ v => .controlled 'E' (nameOf 'E' n) (t 4) (t 5) (t 2) (t 3) v
  | .buffer n _ => .controlled 'E' (nameOf 'E' n) (t 4) (t 5) (t 2) (t 3) "1.0".toList
  | .mosfet n m w l =>
    .mos (nameOf 'M' n) (t 0) (t 1) (t 2) (t 3) (lower m) [(['W'], w), (['L'], l)]
  | .integrator n m => .device (nameOf 'A' n) [.one (.net (t 0)), .one (.net (t 1))] (lower m)
  | .summer n m k =>
    .device (nameOf 'A' n) [.vec ((List.range k).map fun i => .diff (t i) (t (k + 1))), .one (.net (t k))] (lower m)
  | .diffSummer n m k =>
    .device (nameOf 'A' n) [.vec ((List.range k).map fun i => .diff (t i) (t (k + i))), .one (.net (t (2 * k)))] (lower m)
  | .adcRelative n m => .device (nameOf 'A' n) [.vec [.diff (t 0) (t 2)], .vec [.net (t 1)]] (lower m)
  | .adcAbsolute n m => .device (nameOf 'A' n) [.vec [.net (t 0)], .vec [.net (t 1)]] (lower m)
  | .dac n m => .device (nameOf 'A' n) [.vec [.net (t 0)], .vec [.net (t 1)]] (lower m)
  | .flipFlop n m => .device (nameOf 'A' n) ((List.range 6).map fun i => .one (.net (t i))) (lower m)
  | .delay n m => .device (nameOf 'A' n) ((List.range 3).map fun i => .one (.net (t i))) (lower m)
  | .reference n m k => .device (nameOf 'A' n) [.vec ((List.range k).map fun i => .net (t i))] (lower m)
  | .observer n m k => .device (nameOf 'A' n) ((List.range (k + 1)).map fun i => .one (.net (t i))) (lower m)
  | .sub n s k ps => .inst (nameOf 'X' n) ((List.range k).map t) (lower s) ps

/-- What is expected of an element that is printed: its arguments are words, its comments are lines, there is a net with
a usable name at each of its terminals, the values a component insists on being numbers are numbers, and it has no
parameters if it is a sub-circuit. -/
structure Printable {K : Type} [Ring K] (half : K) (fmt : K → Text) (isFloat : Text → Bool) (c : Component K)
    (comments nets : List Text) : Prop where
  texts : ∀ t ∈ c.texts half fmt, Word t
  lines : ∀ t ∈ comments, '\n' ∉ t
  pins : nets.length = c.pins
  nets : ∀ t ∈ nets, NetName t
  number : ∀ n m v, c = .ota n m v ∨ c = .vcvs n m v → isFloat v = true
  plain : ∀ n s k ps, c = .sub n s k ps → ps = []

/-- An element of a sub-circuit: the component, its comments and the nets at its terminals. -/
structure Item (K : Type) where
  comp : Component K
  comments : List Text
  nets : List Text

/-- The element of the netlist that was asked for. -/
def Item.asked {K : Type} [Ring K] (half : K) (fmt : K → Text) (e : Item K) : Stmt :=
  e.comp.asked half fmt fun i => e.nets.getD i []

/-- The value after `key =`. -/
def fieldOf (key : Text) : List Text → Option Text
  | k :: e :: v :: r => if k = key ∧ e = ['='] then some v else fieldOf key (e :: v :: r)
  | _ => none

/-- The values of a parameter of a model. -/
def Val.values : Val → List Text
  | .one t => [t]
  | .list ts => ts

end Cbadc.Cards
