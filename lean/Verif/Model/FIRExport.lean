import Mathlib.Data.Int.Log
import Mathlib.Data.Rat.Floor
import Mathlib.Analysis.SpecialFunctions.Trigonometric.Basic
import Verif.Model.Estimator

/-!
# Reports and exports of a `FIRFilter` (`src/cbadc/digital_estimator/fir_estimator.py:288-439`)

The text files written by `write_C_header` and `write_rust_module`, character by character, and the
functions returning the impulse response, its transform and the number of coefficients.  An array
`h` of shape `(L, K3, M)` is a function `h l k m` of its three indices.
-/

namespace Cbadc.Estimator.Export

/-! ### Formatting of numbers -/

/-- Python's `f"{n}"` of an integer, used at `src/cbadc/digital_estimator/fir_estimator.py:361-362,407-408`
and for the sizes at lines 344-348. -/
def pyStr (n : ℤ) : List Char :=
  if n < 0 then '-' :: Nat.toDigits 10 n.natAbs else Nat.toDigits 10 n.natAbs

/-- Rounding to the nearest integer, ties to even, as the decimal conversion behind the format `.17E` does
(`src/cbadc/digital_estimator/fir_estimator.py:365`). -/
def roundHalfEven (y : ℚ) : ℤ :=
  if y - ⌊y⌋ < 1 / 2 then ⌊y⌋
  else if 1 / 2 < y - ⌊y⌋ then ⌊y⌋ + 1
  else if ⌊y⌋ % 2 = 0 then ⌊y⌋ else ⌊y⌋ + 1

/-- The exponent field of the formats `.17E` and `.17e`: a sign and at least two digits
(`src/cbadc/digital_estimator/fir_estimator.py:365-366,411-412`). -/
def sciExp (e : ℤ) : List Char :=
  (if e < 0 then '-' else '+') ::
    (if (Nat.toDigits 10 e.natAbs).length < 2 then '0' :: Nat.toDigits 10 e.natAbs
      else Nat.toDigits 10 e.natAbs)

/-- Python's `f"{x:.17E}"` (with `ech = 'E'`) and `f"{x:.17e}"` (with `ech = 'e'`),
`src/cbadc/digital_estimator/fir_estimator.py:365-366,411-412`: one digit before the point, 17 digits after
it, correctly rounded.  The float `x` is the rational number it stands for.  Simplification: no negative
zero, infinities or nans. -/
def sci (ech : Char) (x : ℚ) : List Char :=
  if x = 0 then '0' :: '.' :: (List.replicate 17 '0' ++ [ech, '+', '0', '0'])
  else
    let e := Int.log 10 |x|
    let n := roundHalfEven (|x| * 10 ^ (17 - e))
    let p : ℤ × ℤ := if n = 10 ^ 18 then (10 ^ 17, e + 1) else (n, e)
    (if x < 0 then ['-'] else []) ++
      ((match Nat.toDigits 10 p.1.toNat with
        | [] => []
        | d :: ds => d :: '.' :: ds) ++ ech :: sciExp p.2)

/-! ### Text of the files -/

/-- The entries of one filter: `src/cbadc/digital_estimator/fir_estimator.py:358-366` (C) and `404-412`
(Rust); `cell k` is the text of `h[l, k, m]`, and `h[l, -1, m]` is the entry `K3 - 1`. -/
def rowText (o c : Char) (K3 : ℕ) (cell : ℕ → List Char) : List Char :=
  [o] ++ ((List.range (K3 - 1)).flatMap (fun k => cell k ++ [',']) ++ (cell (K3 - 1) ++ [c]))

/-- The filters of one input: `src/cbadc/digital_estimator/fir_estimator.py:356-369` (C) and `402-415`
(Rust). -/
def matText (o c : Char) (M K3 : ℕ) (cell : ℕ → ℕ → List Char) : List Char :=
  [o] ++ ((List.range M).flatMap
    (fun m => rowText o c K3 (fun k => cell k m) ++ if m < M - 1 then [','] else []) ++ [c])

/-- The whole array: `src/cbadc/digital_estimator/fir_estimator.py:354-372` (C) and `400-418` (Rust). -/
def arrayText (o c : Char) (L M K3 : ℕ) (cell : ℕ → ℕ → ℕ → List Char) : List Char :=
  [o] ++ ((List.range L).flatMap
    (fun l => matText o c M K3 (cell l) ++ if l < L - 1 then [','] else []) ++ [c, ';'])

/-- The comment line of the C header: `src/cbadc/digital_estimator/fir_estimator.py:340-343`. -/
def cComment : List Char :=
  "// This file was autogenerated using the src/cbadc/digital_estimator.py FIRFilter class's write_C_header function.".toList

/-- The comment line of the Rust module: `src/cbadc/digital_estimator/fir_estimator.py:386-389`. -/
def rustComment : List Char :=
  "// This file was autogenerated using the src/cbadc/digital_estimator.py FIRFilter class's write_rust_module function.".toList

/-- Contents of the file written by `write_C_header`:
`src/cbadc/digital_estimator/fir_estimator.py:339-372`; `fixed` is `self.fixed_point` and `cell l k m` the
text of `h[l, k, m]`.  Simplification: `os.linesep` is a line feed. -/
def cHeader (fixed : Bool) (L M K1 K2 : ℕ) (cell : ℕ → ℕ → ℕ → List Char) : List Char :=
  cComment ++ ['\n'] ++
  "#define L ".toList ++ pyStr L ++ ['\n'] ++
  "#define M ".toList ++ pyStr M ++ ['\n'] ++
  "#define K1 ".toList ++ pyStr K1 ++ ['\n'] ++
  "#define K2 ".toList ++ pyStr K2 ++ ['\n'] ++
  "#define K3 ".toList ++ pyStr (K1 + K2 : ℕ) ++ ['\n'] ++
  (if fixed then "int h[L][M][K3] = ".toList else "double h[L][M][K3] = ".toList) ++
  arrayText '{' '}' L M (K1 + K2) cell ++ ['\n']

/-- Contents of the file written by `write_rust_module`:
`src/cbadc/digital_estimator/fir_estimator.py:385-418`.  Simplification: `os.linesep` is a line feed. -/
def rustModule (fixed : Bool) (L M K1 K2 : ℕ) (cell : ℕ → ℕ → ℕ → List Char) : List Char :=
  rustComment ++ ['\n'] ++
  "let L: usize = ".toList ++ pyStr L ++ ";\n".toList ++
  "let M: usize = ".toList ++ pyStr M ++ ";\n".toList ++
  "let K1: usize = ".toList ++ pyStr K1 ++ ";\n".toList ++
  "let K2: usize = ".toList ++ pyStr K2 ++ ";\n".toList ++
  "let K3: usize = ".toList ++ pyStr (K1 + K2 : ℕ) ++ ";\n".toList ++
  (if fixed then "let mut h = ".toList else "let mut h = ".toList) ++
  arrayText '[' ']' L M (K1 + K2) cell ++ ['\n']

/-- `write_C_header` of a fixed-point filter: the cells of
`src/cbadc/digital_estimator/fir_estimator.py:360-362`. -/
def cHeaderFixed (L M K1 K2 : ℕ) (h : ℕ → ℕ → ℕ → ℤ) : List Char :=
  cHeader true L M K1 K2 fun l k m => pyStr (h l k m)

/-- `write_C_header` of a floating-point filter: the cells of
`src/cbadc/digital_estimator/fir_estimator.py:364-366`. -/
def cHeaderFloat (L M K1 K2 : ℕ) (h : ℕ → ℕ → ℕ → ℚ) : List Char :=
  cHeader false L M K1 K2 fun l k m => sci 'E' (h l k m)

/-- `write_rust_module` of a fixed-point filter: the cells of
`src/cbadc/digital_estimator/fir_estimator.py:406-408`. -/
def rustFixed (L M K1 K2 : ℕ) (h : ℕ → ℕ → ℕ → ℤ) : List Char :=
  rustModule true L M K1 K2 fun l k m => pyStr (h l k m)

/-- `write_rust_module` of a floating-point filter: the cells of
`src/cbadc/digital_estimator/fir_estimator.py:410-412`. -/
def rustFloat (L M K1 K2 : ℕ) (h : ℕ → ℕ → ℕ → ℚ) : List Char :=
  rustModule false L M K1 K2 fun l k m => sci 'e' (h l k m)

/-- The name of the written file, `src/cbadc/digital_estimator/fir_estimator.py:336-337,382-383`: the
extension is appended unless the name already ends with it. -/
def fileName (ext name : List Char) : List Char :=
  if ext.isSuffixOf name then name else name ++ ext

/-! ### Reports -/

/-- `impulse_response()`: `src/cbadc/digital_estimator/fir_estimator.py:430-439`, `h[:, ::-1, :]` for an
array with `K3` taps. -/
def impulseResponse {K : Type*} {L M : ℕ} (K3 : ℕ) (h : ℕ → Matrix (Fin L) (Fin M) K) :
    ℕ → Matrix (Fin L) (Fin M) K := fun k => h (K3 - 1 - k)

/-- `number_of_filter_coefficients()`: `src/cbadc/digital_estimator/fir_estimator.py:420-428`,
`np.sum(h > 0)`. -/
def numberOfCoefficients {K : Type*} [Zero K] [LT K] [DecidableLT K] {L M : ℕ} (K3 : ℕ)
    (h : ℕ → Matrix (Fin L) (Fin M) K) : ℕ :=
  ∑ l, ∑ k ∈ Finset.range K3, ∑ m, if 0 < h k l m then 1 else 0

/-- The frequencies returned by `fir_filter_transfer_function(Ts)`:
`src/cbadc/digital_estimator/fir_estimator.py:302`, `np.fft.rfftfreq(K3, d=Ts)`. -/
noncomputable def frequencies (K3 : ℕ) (Ts : ℝ) : List ℝ :=
  (List.range (K3 / 2 + 1)).map fun (i : ℕ) => (i : ℝ) / (K3 * Ts)

/-- The responses returned by `fir_filter_transfer_function()`:
`src/cbadc/digital_estimator/fir_estimator.py:301`, `np.fft.rfft(h, axis=1)`, entry `l, m`. -/
noncomputable def transferFunction {L M : ℕ} (K3 : ℕ) (h : ℕ → Matrix (Fin L) (Fin M) ℝ) (l : Fin L)
    (m : Fin M) : List ℂ :=
  (List.range (K3 / 2 + 1)).map fun (i : ℕ) =>
    ∑ k ∈ Finset.range K3, (h k l m : ℂ) * Complex.exp (-2 * Real.pi * Complex.I * (i * k / K3))

end Cbadc.Estimator.Export
