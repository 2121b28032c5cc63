import Mathlib.Data.Int.Bitwise
import Verif.Model.Basic

/-!
# Byte-stream storage of control signals (`src/cbadc/utilities.py`)
-/

namespace Cbadc.Bytes

/-- A `struct` format character with its size: `src/cbadc/utilities.py:39-49`.
Only the two fields used by the codec are kept (`c_type_name` is used for C headers only);
`signed` says whether the marker is one of the signed ones (`h`,`i`,`q`) or `B`. -/
structure Fmt where
  nbytes : ℕ
  signed : Bool
  deriving DecidableEq, Repr

/-- `number_of_bytes_selector`: `src/cbadc/utilities.py:24-50`. -/
def numberOfBytesSelector (M : ℕ) : Res Fmt :=
  if M < 9 then .ok ⟨1, false⟩
  else if M < 17 then .ok ⟨2, true⟩
  else if M < 65 then .ok ⟨4, true⟩
  else if M < 129 then .ok ⟨8, true⟩
  else .error .exception

/-- Little-endian bytes of a natural number, used by `struct.pack` at `src/cbadc/utilities.py:79`.
Simplification: the native byte order of the `struct` module is taken to be little endian. -/
def leBytes : ℕ → ℕ → List ℕ
  | 0, _ => []
  | n + 1, x => x % 256 :: leBytes n (x / 256)

/-- Value of little-endian bytes, used by `struct.unpack` at `src/cbadc/utilities.py:117`. -/
def leValue : List ℕ → ℕ
  | [] => 0
  | b :: bs => b + 256 * leValue bs

/-- `struct.pack(format_marker, x)` of a non-negative Python integer:
`src/cbadc/utilities.py:79`.  `struct.error` when the number does not fit the format. -/
def pack (f : Fmt) (x : ℕ) : Res (List ℕ) :=
  if f.signed then
    if x < 2 ^ (8 * f.nbytes - 1) then .ok (leBytes f.nbytes x) else .error .structError
  else
    if x < 2 ^ (8 * f.nbytes) then .ok (leBytes f.nbytes x) else .error .structError

/-- `struct.unpack(format_marker, bs)[0]`: `src/cbadc/utilities.py:117`.
`struct.error` when the buffer does not have the size of the format; two's complement for the signed
formats. -/
def unpack (f : Fmt) (bs : List ℕ) : Res ℤ :=
  if bs.length = f.nbytes then
    let v : ℕ := leValue bs
    if f.signed then
      if v < 2 ^ (8 * f.nbytes - 1) then .ok (v : ℤ) else .ok ((v : ℤ) - 2 ^ (8 * f.nbytes))
    else .ok (v : ℤ)
  else .error .structError

section
variable {K : Type*} [Zero K] [LT K] [DecidableLT K]

/-- The loop `for m in range(M): if s[m] > 0: sum += 1 << m`:
`src/cbadc/utilities.py:74-78`.  `s[m]` raises `IndexError` beyond the end of `s`. -/
def encSum (s : List K) : ℕ → Res ℕ
  | 0 => .ok 0
  | m + 1 =>
    match encSum s m with
    | .error e => .error e
    | .ok a =>
      match s[m]? with
      | none => .error .indexError
      | some v => if 0 < v then .ok (a + 1 <<< m) else .ok a

/-- One word of `control_signal_2_byte_stream`: `src/cbadc/utilities.py:71-79`. -/
def encodeWord (M : ℕ) (s : List K) : Res (List ℕ) :=
  match numberOfBytesSelector M with
  | .error e => .error e
  | .ok f =>
    match encSum s M with
    | .error e => .error e
    | .ok x => pack f x

/-- `control_signal_2_byte_stream(control_signal, M)` consumed to its end:
`src/cbadc/utilities.py:53-79`.  (For an empty source the width check of line 71 still happens.) -/
def encodeStream (M : ℕ) (src : Trace (List K)) : Trace (List ℕ) :=
  match numberOfBytesSelector M with
  | .error e => ⟨[], e⟩
  | .ok _ => genMap (encodeWord M) src.items src.fin

end

/-- One control vector of `byte_stream_2_control_signal`: `src/cbadc/utilities.py:111-122`.
`mask & (sum >> m)` is the Python (arithmetic shift, two's complement) operation; the result (0 or 1) is
stored in an `int8` array. -/
def decodeWord (M : ℕ) (bs : List ℕ) : Res (List ℤ) :=
  match numberOfBytesSelector M with
  | .error e => .error e
  | .ok f =>
    match unpack f bs with
    | .error e => .error e
    | .ok x => .ok ((List.range M).map fun (m : ℕ) => Int.land 1 (x >>> m))

/-- `byte_stream_2_control_signal(byte_stream, M)` consumed to its end:
`src/cbadc/utilities.py:82-122`. -/
def decodeStream (M : ℕ) (src : Trace (List ℕ)) : Trace (List ℤ) :=
  match numberOfBytesSelector M with
  | .error e => ⟨[], e⟩
  | .ok _ => genMap (decodeWord M) src.items src.fin

/-- `write_byte_stream_to_file`: content of the file afterwards, `src/cbadc/utilities.py:125-137`.
Simplification: a file is the list of its bytes; file system errors are not modelled. -/
def writeFile (src : Trace (List ℕ)) : List ℕ :=
  src.items.foldl (fun content word => content ++ word) []

/-- The nested loops of `write_byte_stream_to_files`: `src/cbadc/utilities.py:155-165`.
`count` and `cur` are the words / bytes written so far to the open file.  When `next(iterator)` raises, the
`with` statement closes the current file and the exception propagates, so the files on disk are the finished
ones and the current one.  `words_per_file` is `wpf`; for `wpf = 0` the Python loop creates empty files
forever without consuming the stream; the model is only meant for `wpf ≥ 1`. -/
def writeFilesGo (wpf : ℕ) (count : ℕ) (cur : List ℕ) : List (List ℕ) → List (List ℕ)
  | [] => [cur]
  | w :: ws =>
    if count + 1 < wpf then writeFilesGo wpf (count + 1) (cur ++ w) ws
    else (cur ++ w) :: writeFilesGo wpf 0 [] ws

/-- `write_byte_stream_to_files(filename, iterator, words_per_file)`: the contents of the files
`base_0.ext, base_1.ext, ...` in order, `src/cbadc/utilities.py:140-165`. -/
def writeFiles (wpf : ℕ) (src : Trace (List ℕ)) : List (List ℕ) :=
  writeFilesGo wpf 0 [] src.items

/-- The loop `while byte: byte = f.read(n); yield byte` over one file:
`src/cbadc/utilities.py:189-194`.  The empty string read at the end of the file is yielded as well.
(`fuel` bounds the number of reads; `readFile` supplies enough of it for `n ≥ 1`.) -/
def readLoop (n : ℕ) : ℕ → List ℕ → List (List ℕ)
  | 0, _ => []
  | fuel + 1, content =>
    let byte := content.take n
    if byte = [] then [byte] else byte :: readLoop n fuel (content.drop n)

/-- All words yielded while reading one file: `src/cbadc/utilities.py:189-194`. -/
def readFile (n : ℕ) (content : List ℕ) : List (List ℕ) :=
  readLoop n (content.length + 1) content

/-- `read_byte_stream_from_file(filenames, M)` consumed to its end:
`src/cbadc/utilities.py:168-197`.  The final `raise StopIteration` inside the generator is turned into
`RuntimeError`. -/
def readFiles (M : ℕ) (files : List (List ℕ)) : Trace (List ℕ) :=
  match numberOfBytesSelector M with
  | .error e => ⟨[], e⟩
  | .ok f => ⟨files.flatMap (readFile f.nbytes), pep479 .stopIteration⟩

end Cbadc.Bytes
