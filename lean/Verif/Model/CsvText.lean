import Verif.Model.NetlistText
import Verif.Model.Spectrum

/-!
# The text of files with control signals (`src/cbadc/utilities.py:236-289`)

`csv_2_control_signal` down to the characters of the file, and the file written by the observer of a test bench
(`src/cbadc/circuit/models/observer.py`).  A text is a list of characters.
-/

namespace Cbadc.CsvText

open Cbadc.NetlistText (Text)

/-- `isspace` of the scanner behind `np.fromstring` (`src/cbadc/utilities.py:282`). -/
def isWs (c : Char) : Bool := c.toNat ∈ [0x20, 0x09, 0x0a, 0x0b, 0x0c, 0x0d]

/-- The lines of a file opened for reading text, each with its line end as a line feed (`src/cbadc/utilities.py:280-281`): a
line ends with a line feed, a carriage return or both.  `cr` tells whether the last character was a carriage return. -/
def fileLinesFrom (cr : Bool) (cur : Text) : Text → List Text
  | [] => if cur = [] then [] else [cur.reverse]
  | c :: cs =>
    if cr && c == '\n' then fileLinesFrom false cur cs
    else if c == '\n' || c == '\r' then (cur.reverse ++ ['\n']) :: fileLinesFrom (c == '\r') [] cs
    else fileLinesFrom false (c :: cur) cs

/-- `for line in read_obj`: `src/cbadc/utilities.py:281`. -/
def fileLines (t : Text) : List Text := fileLinesFrom false [] t

/-- The value of decimal digits, in `np.fromstring` (`src/cbadc/utilities.py:282`). -/
def digitsValue (ds : Text) : ℕ := ds.foldl (fun n c => 10 * n + (c.toNat - '0'.toNat)) 0

/-- Leading digits and what follows them, in `np.fromstring` (`src/cbadc/utilities.py:282`). -/
def scanDigits (t : Text) : Option (ℕ × Text) :=
  if t.takeWhile Char.isDigit = [] then none
  else some (digitsValue (t.takeWhile Char.isDigit), t.dropWhile Char.isDigit)

/-- `strtol` in `np.fromstring` (`src/cbadc/utilities.py:282`): white space, a sign and digits.  Simplification: numbers
beyond the range of a C `long` are not cut off, and a text without digits is an error. -/
def scanInt (t : Text) : Option (ℤ × Text) :=
  match t.dropWhile isWs with
  | [] => none
  | c :: cs =>
    if c = '-' then (scanDigits cs).map fun p => (-(p.1 : ℤ), p.2)
    else if c = '+' then (scanDigits cs).map fun p => ((p.1 : ℤ), p.2)
    else (scanDigits (c :: cs)).map fun p => ((p.1 : ℤ), p.2)

/-- Storing a number as `np.int8` (`src/cbadc/utilities.py:282`). -/
def int8 (v : ℤ) : ℤ := (v + 128) % 256 - 128

/-- What follows the separator, if the text continues with one after white space (`np.fromstring`,
`src/cbadc/utilities.py:282`). -/
def afterSep (sep t : Text) : Option Text :=
  if sep <+: t.dropWhile isWs then some ((t.dropWhile isWs).drop sep.length) else none

/-- `np.fromstring(line, dtype=np.int8, sep=separator)`, `src/cbadc/utilities.py:282`: numbers until something else
follows (numpy then only warns).  `fuel` bounds the number of entries.  Simplification: the separator has no white space. -/
def entries (sep : Text) : ℕ → Text → List ℤ
  | 0, _ => []
  | fuel + 1, t =>
    match scanInt t with
    | none => []
    | some (v, rest) =>
      int8 v :: match afterSep sep rest with
        | none => []
        | some t' => entries sep fuel t'

/-- The entries of a line; a line of `n` characters has at most `n` entries: `src/cbadc/utilities.py:282`. -/
def fromString (sep line : Text) : List ℤ := entries sep line.length line

/-- `csv_2_control_signal(filename, M, msb2lsb, separator)`, `src/cbadc/utilities.py:236-289`, of a file with the given
text. -/
def csvFile (sep : Text) (M : ℕ) (msb2lsb : Bool) (file : Text) : Trace (List ℤ) :=
  Spectrum.csvReader (fromString sep) M msb2lsb (fileLines file)

/-- `sep.join(texts)`, as in `src/cbadc/circuit/models/observer.py:46`. -/
def join (sep : Text) : List Text → Text
  | [] => []
  | [t] => t
  | t :: ts => t ++ (sep ++ join sep ts)

/-- `f's_{index}'`, the names of the columns of a test bench's observer: `src/cbadc/circuit/testbench.py:161`. -/
def columnName (index : ℕ) : Text := 's' :: '_' :: Nat.toDigits 10 index

/-- The file the observer writes: the header, and a line with the voltages at every edge of the clock
(`src/cbadc/circuit/templates/verilog_ams/observer.vams.j2:19-29`, `src/cbadc/circuit/models/observer.py:37-48`); `fixed` is
the format `%f`. -/
def observerFile {V : Type*} (fixed : V → Text) (M : ℕ) (rows : List (List V)) : Text :=
  join [','] ((List.range M).map columnName) ++ ('\n' :: rows.flatMap fun r => join [','] (r.map fixed) ++ ['\n'])

end Cbadc.CsvText
