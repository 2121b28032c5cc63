import Verif.Model.Basic

/-!
# Model of the text of sub-circuit definitions

`src/cbadc/circuit/__init__.py:680-741` (`NetlistElement`) and the template
`src/cbadc/circuit/templates/ngspice/sub_circuit_definition.cir.j2`.  A text is a list of characters;
`str.lower` and `str.upper` are modelled on the ASCII letters.
-/

namespace Cbadc.NetlistText

abbrev Text := List Char

/-- The characters `str.splitlines` breaks at (`src/cbadc/circuit/__init__.py:699`). -/
def isBreak (c : Char) : Bool :=
  c.toNat ∈ [0x0a, 0x0b, 0x0c, 0x0d, 0x1c, 0x1d, 0x1e, 0x85, 0x2028, 0x2029]

/-- The characters `str.split` breaks at (`src/cbadc/circuit/__init__.py:700`, `711`). -/
def isSpace (c : Char) : Bool :=
  c.toNat ∈ [0x09, 0x0a, 0x0b, 0x0c, 0x0d, 0x1c, 0x1d, 0x1e, 0x1f, 0x20, 0x85, 0xa0, 0x1680, 0x2000, 0x2001, 0x2002,
    0x2003, 0x2004, 0x2005, 0x2006, 0x2007, 0x2008, 0x2009, 0x200a, 0x2028, 0x2029, 0x202f, 0x205f, 0x3000]

/-- `str.splitlines` with the current line (reversed) and whether the last character was a carriage return, which
swallows a line feed (`src/cbadc/circuit/__init__.py:699`). -/
def splitlinesFrom (cr : Bool) (cur : Text) : Text → List Text
  | [] => if cur = [] then [] else [cur.reverse]
  | c :: cs =>
    if cr && c == '\n' then splitlinesFrom false cur cs
    else if isBreak c then cur.reverse :: splitlinesFrom (c == '\r') [] cs
    else splitlinesFrom false (c :: cur) cs

/-- `str.splitlines()`: `src/cbadc/circuit/__init__.py:699`. -/
def splitlines (t : Text) : List Text := splitlinesFrom false [] t

/-- `str.split` with the current word (reversed): `src/cbadc/circuit/__init__.py:700`, `711`. -/
def splitFrom (cur : Text) : Text → List Text
  | [] => if cur = [] then [] else [cur.reverse]
  | c :: cs =>
    if isSpace c then
      if cur = [] then splitFrom [] cs else cur.reverse :: splitFrom [] cs
    else splitFrom (c :: cur) cs

/-- `str.split()`: `src/cbadc/circuit/__init__.py:700`, `711`. -/
def split (t : Text) : List Text := splitFrom [] t

/-- `str.lower()`: `src/cbadc/circuit/__init__.py:703`, `711`, `717`. -/
def lower (t : Text) : Text := t.map Char.toLower

/-- `str.upper()`: `src/cbadc/circuit/__init__.py:718`, `58`. -/
def upper (t : Text) : Text := t.map Char.toUpper

/-- The attributes of a `NetlistElement` that are printed: `src/cbadc/circuit/__init__.py:717-726`.  The instance
name, a running number, is left out. -/
structure Element where
  name : Text
  terminals : List Text
  netlist : Text
deriving DecidableEq

/-- The loop that looks for `.ends`: `src/cbadc/circuit/__init__.py:709-712`; `line.split()[0]` raises for a line
without words. -/
def findEnds (found : Bool) : List Text → Res Bool
  | [] => .ok found
  | l :: ls =>
    match split l with
    | [] => .error .indexError
    | w :: _ => findEnds (if lower w = ".ends".toList then true else found) ls

/-- The constructor after the text has been read: `src/cbadc/circuit/__init__.py:698-726`.  Terminals of the same
name are refused (`src/cbadc/circuit/__init__.py:264-287`, property C54). -/
def parse (netlist : Text) : Res Element :=
  match splitlines netlist with
  | [] => .error .indexError
  | first :: rest =>
    match split first with
    | [] => .error .indexError
    | kw :: args =>
      if lower kw ≠ ".subckt".toList then .error .valueError
      else
        match findEnds false rest with
        | .error e => .error e
        | .ok found =>
          if found = false then .error .valueError
          else
            match args with
            | [] => .error .indexError
            | name :: ts =>
              if (ts.map upper).Nodup then .ok ⟨lower name, ts.map upper, netlist⟩
              else .error .valueError

/-- `NetlistElement(netlist)`: `src/cbadc/circuit/__init__.py:691-726`; `files` is what opening and reading a file
gives. -/
def netlistElement (files : Text → Res Text) (netlist : Text) : Res Element :=
  if ".txt".toList <:+ netlist ∨ ".net".toList <:+ netlist ∨ ".cir".toList <:+ netlist then
    match files netlist with
    | .error e => .error e
    | .ok t => parse t
  else parse netlist

/-- `NetlistElement.get_sub_circuit_definitions()`: `src/cbadc/circuit/__init__.py:728-732`. -/
def Element.definitions (e : Element) : List Text := [e.netlist]

/-- The definition of a sub-circuit as it is printed, for a sub-circuit without parameters:
`templates/ngspice/sub_circuit_definition.cir.j2`, rendered by `src/cbadc/circuit/__init__.py:419-434`; `parts` are
the texts of its elements.  With `trim_blocks` (line 14) the newline after a block tag is dropped. -/
def definitionText (name : Text) (terminals : List Text) (parts : List Text) : Text :=
  ".SUBCKT ".toList ++ name ++ terminals.flatMap (fun t => ' ' :: t) ++ ['\n']
    ++ parts.flatMap (fun p => "    ".toList ++ p ++ ['\n']) ++ ".ENDS ".toList ++ name

end Cbadc.NetlistText
