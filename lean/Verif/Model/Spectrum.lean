import Mathlib.Algebra.Order.Ring.Abs
import Mathlib.Analysis.SpecialFunctions.Sqrt
import Verif.Model.Basic

/-!
# Spectrum utilities and the CSV reader (`src/cbadc/utilities.py`)

A spectrum is a function on indices together with its size; only entries below the size are looked at.  Entries are
elements of an ordered ring (magnitudes of complex entries are not distinguished from real ones).
-/

namespace Cbadc.Spectrum

variable {K : Type*} [CommRing K] [LinearOrder K]

/-- `np.argmax(np.abs(.))` over the indices `0 .. k`: the first largest entry (`src/cbadc/utilities.py:479`). -/
def argmaxUpTo (f : ℕ → K) : ℕ → ℕ
  | 0 => 0
  | k + 1 => if |f (argmaxUpTo f k)| < |f (k + 1)| then k + 1 else argmaxUpTo f k

/-- `np.argmax(np.abs(.))`, `src/cbadc/utilities.py:479`; raises `ValueError` for an empty array. -/
def argmax (size : ℕ) (f : ℕ → K) : Res ℕ :=
  match size with
  | 0 => .error .valueError
  | k + 1 => .ok (argmaxUpTo f k)

/-- `np.arange(a, b)` on integers, `src/cbadc/utilities.py:482,492`. -/
def arange (a b : ℤ) : List ℤ := (List.range (b - a).toNat).map fun (k : ℕ) => a + k

/-- `np.clip(., 0, spectrum.size - 1)`, `src/cbadc/utilities.py:485,495`. -/
def clip (size : ℕ) (z : ℤ) : ℤ := min (max z 0) (size - 1)

/-- `remaining_spectrum[indices] = 0`, `src/cbadc/utilities.py:498`. -/
def zeroAt (idx : List ℤ) (r : ℕ → K) : ℕ → K := fun i => if (i : ℤ) ∈ idx then 0 else r i

/-- Insertion into a strictly increasing list, for `np.unique` (`src/cbadc/utilities.py:500`). -/
def insertU (x : ℤ) : List ℤ → List ℤ
  | [] => [x]
  | y :: r => if x < y then x :: y :: r else if x = y then y :: r else y :: insertU x r

/-- `np.unique`: sorted, without duplicates (`src/cbadc/utilities.py:500`). -/
def unique (l : List ℤ) : List ℤ := l.foldr insertU []

/-- The loop of `find_n_sinusoidals`, `src/cbadc/utilities.py:477-498`, on `remaining_spectrum` and `indices`. -/
def findLoop (size : ℕ) (width dist : ℤ) : ℕ → (ℕ → K) → List ℤ → Res (List ℤ)
  | 0, _, acc => .ok acc
  | n + 1, r, acc =>
    match argmax size r with
    | .error e => .error e
    | .ok p =>
      findLoop size width dist n
        (zeroAt ((arange (p - dist) (p + width)).map (clip size)) r)
        (acc ++ (arange (p - width / 2) (p + width / 2)).map (clip size))

/-- `find_n_sinusoidals`, `src/cbadc/utilities.py:457-500`. -/
def findN (size : ℕ) (f : ℕ → K) (n width : ℤ) (dist : Option ℤ) : Res (List ℤ) :=
  match findLoop size width (dist.getD (width / 2)) n.toNat f [] with
  | .error e => .error e
  | .ok l => .ok (unique l)

/-- `find_sinusoidal`, `src/cbadc/utilities.py:504-519`. -/
def findOne (size : ℕ) (f : ℕ → K) (width : ℤ) : Res (List ℤ) :=
  match findN size f 1 width none with
  | .error .indexError => .ok [0]
  | r => r

/-- One entry of `spectrum[mask]`: negative indices count from the end, others outside raise `IndexError`
(`src/cbadc/utilities.py:374-375`). -/
def at1 (size : ℕ) (f : ℕ → K) (i : ℤ) : Res K :=
  if 0 ≤ i ∧ i < size then .ok (f i.toNat)
  else if -size ≤ i ∧ i < 0 then .ok (f (i + size).toNat)
  else .error .indexError

/-- `np.sum(spectrum[mask])`, `src/cbadc/utilities.py:374-375,427-429`, for masks that are lists of indices. -/
def power (size : ℕ) (f : ℕ → K) : List ℤ → Res K
  | [] => .ok 0
  | i :: r =>
    match at1 size f i with
    | .error e => .error e
    | .ok x =>
      match power size f r with
      | .error e => .error e
      | .ok s => .ok (x + s)

open Classical in
/-- `snr_spectrum_computation`, `src/cbadc/utilities.py:355-380`; `none` is `np.inf`. -/
noncomputable def snr (size : ℕ) (f : ℕ → ℝ) (signal noise : List ℤ) : Res (Option ℝ) :=
  match power size f noise with
  | .error e => .error e
  | .ok n =>
    match power size f signal with
    | .error e => .error e
    | .ok s => .ok (if n > 0 then some (s / n) else none)

/-- The ratios in the result of `snr_spectrum_computation_extended`, `src/cbadc/utilities.py:440-450`. -/
structure Figures where
  snr : ℝ
  sinad : ℝ
  thd : ℝ
  thdN : ℝ

/-- `snr_spectrum_computation_extended`, `src/cbadc/utilities.py:383-450`: the ratios only (the rms values are
`rmsValues`).  `harmonics = none` is the default argument `np.array([0])`.  Divisions by zero (numpy:
`inf` or `nan` with a warning) give 0 here; the theorems only speak about positive denominators. -/
noncomputable def snrExtended (size : ℕ) (f : ℕ → ℝ) (signal noise : List ℤ) (harmonics : Option (List ℤ)) :
    Res Figures :=
  match power size f noise with
  | .error e => .error e
  | .ok n =>
    match power size f signal with
    | .error e => .error e
    | .ok s =>
      match power size f (harmonics.getD [0]) with
      | .error e => .error e
      | .ok h => .ok ⟨s / n, (s + n + h) / (n + h), Real.sqrt (h / s), Real.sqrt ((h + n) / s)⟩

/-- `csv_2_control_signal`, `src/cbadc/utilities.py:236-289`, on the lines of the file; `parse` is `np.fromstring` on one
line.  The generator ends with `StopIteration` after the last line. -/
def csvReader {Line : Type*} (parse : Line → List ℤ) (M : ℕ) (msb2lsb : Bool) : List Line → Trace (List ℤ)
  | [] => ⟨[], .stopIteration⟩
  | line :: rest =>
    let s := parse line
    if s.length ≠ M then ⟨[], .runtimeError⟩
    else
      let t := csvReader parse M msb2lsb rest
      ⟨(if msb2lsb then s.reverse else s) :: t.items, t.fin⟩

end Cbadc.Spectrum
