import Mathlib.Algebra.Order.Field.Basic
import Mathlib.Algebra.Order.Group.Abs
import Verif.Model.AnalogSystem
import Verif.Model.DigitalControl
import Verif.Model.Signals

/-!
# Import of continuous-time sigma-delta modulators
(`src/cbadc/synthesis/continuous_time_sigma_delta.py`)

Exact arithmetic over an ordered field `K`.  Dictionaries are functions from keys to optional values; keys are lists of
characters.
-/

namespace Cbadc.SigmaDelta
open Analog Control Signal

variable {K : Type*} [Field K] [LinearOrder K]

/-- One coefficient of the dictionary, with the members `fixedValue` (possibly missing) and `active`
(`src/cbadc/synthesis/continuous_time_sigma_delta.py:98-103,185-187`). -/
structure Coeff (K : Type*) where
  fixedValue : Option K
  active : Bool

/-- A key of the dictionary (`src/cbadc/synthesis/continuous_time_sigma_delta.py:36-43`). -/
abbrev Name := List Char

/-- The member `coefficient` (`src/cbadc/synthesis/continuous_time_sigma_delta.py:29`). -/
abbrev Dict (K : Type*) := Name → Option (Coeff K)

/-- The members of the dictionary that are read: `systemOptions.systemOrder`, `quantizer.level` and `coefficient`
(`src/cbadc/synthesis/continuous_time_sigma_delta.py:28-29,68,136`). -/
structure Ctsd (K : Type*) where
  order : ℕ
  level : ℕ
  coefficient : Dict K

/-- The f-strings `f"b{i}"`, e.g. `src/cbadc/synthesis/continuous_time_sigma_delta.py:36,184`. -/
def name1 (letter : Char) (i : ℕ) : Name := letter :: Nat.toDigits 10 i

/-- The f-strings `f"e{i}{j}"`, e.g. `src/cbadc/synthesis/continuous_time_sigma_delta.py:40,211`. -/
def name2 (letter : Char) (i j : ℕ) : Name := letter :: (Nat.toDigits 10 i ++ Nat.toDigits 10 j)

/-- `name in coefficients` (`src/cbadc/synthesis/continuous_time_sigma_delta.py:37,40,42`). -/
def has (d : Dict K) (n : Name) : Bool := (d n).isSome

/-- `_get_coeff_value`, `src/cbadc/synthesis/continuous_time_sigma_delta.py:98-103`.  A missing coefficient or a missing
`fixedValue` gives the default; `active` is not looked at. -/
def coeffValue (d : Dict K) (n : Name) (dflt : K := 0) : K :=
  match d n with
  | none => dflt
  | some c => c.fixedValue.getD dflt

/-- The matrix `A` of `ctsd2abc`, `src/cbadc/synthesis/continuous_time_sigma_delta.py:31-43`.  Row `n1` is only written in
iteration `n1`, entry `n2` first by line 38 (whose column index `-1` for `n1 = 0` is the last column), then by line 41,
then by line 43. -/
def matA (N : ℕ) (d : Dict K) (fs : K) (n1 n2 : ℕ) : K :=
  if has d (name2 'd' (n2 + 1) (n1 + 1)) then coeffValue d (name2 'd' (n2 + 1) (n1 + 1)) * fs
  else if has d (name2 'e' (n2 + 1) (n1 + 1)) then coeffValue d (name2 'e' (n2 + 1) (n1 + 1)) * fs
  else if has d (name1 'c' n1) ∧ n2 = (if n1 = 0 then N - 1 else n1 - 1) then coeffValue d (name1 'c' n1) * fs
  else 0

/-- The matrix `B` of `ctsd2abc`, `src/cbadc/synthesis/continuous_time_sigma_delta.py:32,36`. -/
def matB (d : Dict K) (fs : K) (n1 : ℕ) : K := coeffValue d (name1 'b' (n1 + 1)) * fs

/-- `Gamma` of `ctsd2gamma`, `src/cbadc/synthesis/continuous_time_sigma_delta.py:74,77-78`. -/
def matGamma (d : Dict K) (fs dacScale : K) (localControl : Bool) (n1 m : ℕ) : K :=
  if m = (if localControl then n1 else 0) then coeffValue d (name1 'a' (n1 + 1)) * fs * dacScale else 0

/-- `Gamma_tildeT` of `ctsd2gamma`, `src/cbadc/synthesis/continuous_time_sigma_delta.py:75,81,85,93`. -/
def matGammaT (N : ℕ) (d : Dict K) (localControl : Bool) (m n1 : ℕ) : K :=
  if localControl then (if m = n1 then 1 else 0)
  else if n1 = N - 1 then coeffValue d (name1 'c' N) 1
  else coeffValue d (name2 'd' (n1 + 1) (N + 1))

/-- `D_tilde` of `ctsd2gamma`, `src/cbadc/synthesis/continuous_time_sigma_delta.py:87-88,92`. -/
def matDt (N : ℕ) (d : Dict K) (localControl : Bool) : K :=
  if localControl then 0 else coeffValue d (name1 'b' (N + 1))

/-- `AnalogFrontend` with a multi-level control, `src/cbadc/synthesis/continuous_time_sigma_delta.py:139`. -/
structure MLFrontend (K : Type*) where
  M : ℕ
  sys : Sys K
  ml : ML K M

/-- `ctsd_dict2af`, `src/cbadc/synthesis/continuous_time_sigma_delta.py:106-139`, with `ctsd2abc` (lines 10-44) and
`ctsd2gamma` (lines 47-95).  For order 0 the assignment in line 85 raises `IndexError`.  `CT` is the identity.  The clock
has the default transition time (`src/cbadc/analog_signal/clock.py:44-51`). -/
def dict2af (c : Ctsd K) (T dacScale : K) (localControl : Bool) (qlev : Option ℕ) : Res (MLFrontend K) :=
  match pyDiv 1 T with
  | .error e => .error e
  | .ok fs =>
    if c.order = 0 then .error .indexError
    else
      let N := c.order
      let d := c.coefficient
      let M := if localControl then N else 1
      match Sys.new (.mat N N (matA N d fs)) (.mat N 1 fun n _ => matB d fs n)
          (.mat N N fun i j => if i = j then 1 else 0) (some (.mat N M (matGamma d fs dacScale localControl)))
          (some (.mat M N (matGammaT N d localControl))) none
          (some (.mat M 1 fun _ _ => matDt N d localControl)) none with
      | .error e => .error e
      | .ok sys =>
        match Clock.new T (1 / 10 ^ 14) 0 (1 / 2) 2 with
        | .error e => .error e
        | .ok clk =>
          match ML.new clk.T clk.tt2 M (List.replicate M (qlev.getD c.level)) none [] with
          | .error e => .error e
          | .ok ml => .ok ⟨M, sys, ml⟩

/-- The assignments of the first loop of `_schreier_abcd_to_ulm_dict` in order,
`src/cbadc/synthesis/continuous_time_sigma_delta.py:176-177,181-193`. -/
def inputEntries (N : ℕ) (X : ℕ → ℕ → K) : List (Name × K) :=
  (List.range (N + 1)).flatMap fun n => [(name1 'b' (n + 1), X n N), (name1 'a' (n + 1), X n (N + 1))]

/-- The assignment for entry `(m, n)` in the second loop, by the position of the entry relative to the diagonal; none on
the diagonal (`src/cbadc/synthesis/continuous_time_sigma_delta.py:200-214`). -/
def stateEntry (X : ℕ → ℕ → K) (m n : ℕ) : List (Name × K) :=
  if m = n + 1 then [(name1 'c' (n + 1), X m n)]
  else if m > n + 1 then [(name2 'd' (n + 1) (m + 1), X m n)]
  else if m < n then [(name2 'e' (n + 1) (m + 1), X m n)]
  else []

/-- The assignments of the second loop in order, `src/cbadc/synthesis/continuous_time_sigma_delta.py:195-214`. -/
def stateEntries (N : ℕ) (X : ℕ → ℕ → K) : List (Name × K) :=
  (List.range (N + 1)).flatMap fun m => (List.range N).flatMap fun n => stateEntry X m n

/-- One conditional assignment `if np.abs(val) > min_val: coefficients[name] = ...`,
`src/cbadc/synthesis/continuous_time_sigma_delta.py:183-187,198-204`. -/
def put (d : Dict K) (e : Name × K) : Dict K :=
  if |e.2| > 1 / 10 ^ 8 then fun n => if n = e.1 then some ⟨some e.2, true⟩ else d n else d

/-- The dictionary after all assignments, `src/cbadc/synthesis/continuous_time_sigma_delta.py:174-215`. -/
def coefficients (N : ℕ) (X : ℕ → ℕ → K) : Dict K :=
  (inputEntries N X ++ stateEntries N X).foldl put fun _ => none

/-- `ctsd_abcd2af`, `src/cbadc/synthesis/continuous_time_sigma_delta.py:142-162`, with `_schreier_abcd_to_ulm_dict` (lines
165-216) for an array with `rows` rows and `cols` columns.  Too few columns raise `IndexError` in line 177; no rows give
order -1, which `np.zeros` rejects (line 31). -/
def abcd2af (rows cols : ℕ) (X : ℕ → ℕ → K) (T : K) (qlev : ℕ) (dacScale : K) (localControl : Bool) :
    Res (MLFrontend K) :=
  if rows = 0 then .error .valueError
  else if cols < rows + 1 then .error .indexError
  else dict2af ⟨rows - 1, qlev, coefficients (rows - 1) X⟩ T dacScale localControl (some qlev)

end Cbadc.SigmaDelta
