import Mathlib.Algebra.BigOperators.Fin
import Mathlib.Algebra.Order.Field.Basic
import Mathlib.Algebra.Order.Group.Abs
import Mathlib.Algebra.Order.BigOperators.Group.Finset
import Verif.Model.Basic

/-!
# Sets of control directions (`src/cbadc/digital_control/utilities.py`, `unit_element_set`)

Exact arithmetic over an ordered field `K`; a matrix is the list of its columns.
-/

namespace Cbadc.UnitElements

variable {K : Type*} {N : ℕ}

/-- `itertools.product(*[candidates for _ in range(N)])`, `src/cbadc/digital_control/utilities.py:75`: the rightmost
entry advances fastest. -/
def product (cs : List K) : (n : ℕ) → List (Fin n → K)
  | 0 => [Fin.elim0]
  | n + 1 => cs.flatMap fun c => (product cs n).map fun v => Fin.cons c v

variable [Field K] [LinearOrder K]

/-- `np.sum(np.abs(...))`, `src/cbadc/digital_control/utilities.py:77`, `82-83`. -/
def l1 (v : Fin N → K) : K := ∑ i, |v i|

/-- The loop that collects the candidates, `src/cbadc/digital_control/utilities.py:74-87`: it ends at the first zero vector,
and skips vectors that are equal or opposite to one in the list. -/
def collect : List (Fin N → K) → List (Fin N → K) → List (Fin N → K)
  | [], acc => acc
  | v :: r, acc =>
    if l1 v = 0 then acc
    else if acc.any fun w => decide (l1 (w - v) = 0 ∨ l1 (w + v) = 0) then collect r acc
    else collect r (acc ++ [v])

/-- `costs`, `src/cbadc/digital_control/utilities.py:98-100`, squared: the smallest square is the square of the smallest one. -/
def cost (set : List (Fin N → K)) (v : Fin N → K) : K :=
  (set.map fun w => (∑ i, v i * w i) ^ 2).sum / ∑ i, v i ^ 2

/-- `np.argmin` and `np.delete`, `src/cbadc/digital_control/utilities.py:101`, `103`: the first of the smallest, and the list
without it. -/
def pickMin {α K : Type*} [LinearOrder K] (f : α → K) : List α → Option (α × List α)
  | [] => none
  | a :: r =>
    match pickMin f r with
    | none => some (a, [])
    | some (b, r') => if f b < f a then some (b, a :: r') else some (a, r)

/-- The loop that chooses the columns, `src/cbadc/digital_control/utilities.py:97-103`, for a given number of columns still
missing.  (`argmin` raises `ValueError` on an empty array.) -/
def choose : ℕ → List (Fin N → K) → List (Fin N → K) → Res (List (Fin N → K))
  | 0, set, _ => .ok set
  | n + 1, set, cands =>
    match pickMin (cost set) cands with
    | none => .error .valueError
    | some (b, r) => choose n (set ++ [b]) r

/-- `unit_element_set`, `src/cbadc/digital_control/utilities.py:51-105`.  An empty candidate list is a one-dimensional array,
whose indexing in line 94 raises `IndexError`. -/
def unitElementSet (N M : ℕ) (candidates : List K) : Res (List (Fin N → K)) :=
  let cs := collect (product candidates N) []
  if cs.length < M then .error .exception
  else
    match cs with
    | [] => .error .indexError
    | c :: r => choose (M - 1) [c] r

end Cbadc.UnitElements
