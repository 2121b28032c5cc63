import Mathlib.Analysis.SpecialFunctions.Pow.Real
import Mathlib.Data.Complex.BigOperators
import Verif.Model.Topology

/-!
# Zero-pole-gain realisation (`src/cbadc/analog_system/topology.py:180-308`)

Exact complex arithmetic.  The order in which `np.argsort` places entries with equal `|imag|` is not specified, so
the sorting is a parameter of the model; theorems are about every admissible one.
-/

namespace Cbadc.Analog
open Complex

/-- `np.allclose(a, b)` for two numbers with the default tolerances
(`src/cbadc/analog_system/topology.py:223,304`). -/
def closeC (a b : ℂ) : Prop := ‖a - b‖ ≤ 1e-8 + 1e-5 * ‖b‖

/-- `_complex_conjugate_pairs`, `src/cbadc/analog_system/topology.py:301-307`; an odd last element is not
looked at. -/
def conjPairs : List ℂ → Prop
  | a :: b :: l => closeC a (starRingEnd ℂ b) ∧ conjPairs l
  | _ => True

open Classical in
/-- `_sort_by_complex_descending`, `src/cbadc/analog_system/topology.py:288-298`; `sort` stands for
`list[np.argsort(np.abs(np.imag(list)))[::-1]]`.  (Lines 295-297 write the real entries to where they already
are.) -/
noncomputable def sortByComplex (sort : List ℂ → List ℂ) (l : List ℂ) : Res (List ℂ) :=
  let l' := sort l
  if conjPairs (l'.filter fun z => z.im ≠ 0) then .ok l' else .error .exception

/-- `AnalogSystem(A, B, CT, None, None, D)` with a two-dimensional state, `A = [[a, b], [c, d]]`,
`B = [[β], [0]]`, `CT = [[c1, c2]]`, `D = [[δ]]` (`src/cbadc/analog_system/topology.py:281`). -/
noncomputable def new2 (a b c d β c1 c2 δ : ℂ) : Res (Sys ℂ) :=
  Sys.new (.mat 2 2 fun i j => if i = 0 then (if j = 0 then a else b) else (if j = 0 then c else d))
    (.mat 2 1 fun i _ => if i = 0 then β else 0) (.mat 1 2 fun _ j => if j = 0 then c1 else c2) none none
    (some (.mat 1 1 fun _ _ => δ)) none none

/-- `AnalogSystem(A, B, CT, None, None, D)` with a one-dimensional state
(`src/cbadc/analog_system/topology.py:281`). -/
noncomputable def new1 (a β c δ : ℂ) : Res (Sys ℂ) :=
  Sys.new (.mat 1 1 fun _ _ => a) (.mat 1 1 fun _ _ => β) (.mat 1 1 fun _ _ => c) none none
    (some (.mat 1 1 fun _ _ => δ)) none none

open Classical in
/-- The two-pole branch once `A = [[a, b], [c, d]]` is known, `src/cbadc/analog_system/topology.py:231-263`;
`z` are the remaining zeros.  For `A[1, 0] = 0` numpy produces infinities / a `LinAlgError`; this is the
error `zeroDivision` here. -/
noncomputable def zpkZeros (kps : ℝ) (a b c d : ℝ) (z : List ℂ) : Res (Sys ℂ) :=
  if c = 0 then .error .zeroDivision
  else
    match z with
    | z1 :: z2 :: _ =>
      let y0 := z1 + z2 - a - d
      let y1 := z1 * z2 - a * d + b * c
      if |y0.im| ≤ 1e-8 ∧ |y1.im| ≤ 1e-8 then
        let c1 := -y0.re
        let c2 := (y1.re + d * c1) / c
        new2 a b c d (kps ^ 2 : ℝ) c1 c2 (kps ^ 2 : ℝ)
      else .error .exception
    | [z1] =>
      if z1.im ≠ 0 then .error .exception
      else new2 a b c d (kps ^ 2 : ℝ) 1 ((d - z1.re) / c : ℝ) 0
    | [] => new2 a b c d (kps ^ 2 : ℝ) 0 (1 / c : ℝ) 0

open Classical in
/-- The two-pole branch, `src/cbadc/analog_system/topology.py:213-265`. -/
noncomputable def zpkTwo (kps : ℝ) (p1 p2 : ℂ) (z : List ℂ) : Res (Sys ℂ) :=
  if closeC p1 (starRingEnd ℂ p2) then zpkZeros kps p1.re p1.im p2.im p2.re z
  else if p1.im ≠ 0 ∨ p2.im ≠ 0 then .error .exception
  else zpkZeros kps p1.re 0 1 p2.re z

open Classical in
/-- The single-pole branch, `src/cbadc/analog_system/topology.py:267-280`.  (`pole - np.real(zero)` is stored in
a real array; the pole is real there.) -/
noncomputable def zpkOne (kps : ℝ) (p : ℂ) (z : List ℂ) : Res (Sys ℂ) :=
  if p.im ≠ 0 then .error .exception
  else
    match z with
    | [] => new1 p.re kps 1 0
    | z :: _ => if z.im ≠ 0 then .error .exception else new1 p.re kps (p.re - z.re : ℝ) kps

/-- The loop over the poles, `src/cbadc/analog_system/topology.py:206-281`; the zeros are consumed at the same
index. -/
noncomputable def zpkLoop (kps : ℝ) : List ℂ → List ℂ → Res (List (Sys ℂ))
  | [], _ => .ok []
  | [p], z => do
    let g ← zpkOne kps p z
    .ok [g]
  | p1 :: p2 :: p, z => do
    let g ← zpkTwo kps p1 p2 z
    let l ← zpkLoop kps p (z.drop 2)
    .ok (g :: l)

/-- `zpk2abcd`, `src/cbadc/analog_system/topology.py:180-285`.  (Sorting an empty list of zeros is skipped in the
code; it is the identity here.) -/
noncomputable def zpk2abcd (sort : List ℂ → List ℂ) (z p : List ℂ) (k : ℝ) : Res (ABCD ℂ) :=
  if z.length > p.length ∨ p.length < 1 then .error .exception
  else do
    let p' ← sortByComplex sort p
    let z' ← sortByComplex sort z
    let kps := |k| ^ ((p.length : ℝ)⁻¹)
    let l ← zpkLoop kps p' z'
    let g ← chain l
    .ok (toABCD g)

end Cbadc.Analog
