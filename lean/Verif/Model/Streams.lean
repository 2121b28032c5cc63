import Mathlib.Data.Nat.Basic
import Mathlib.Tactic.TypeStar
import Verif.Model.Basic

/-!
# Generators and iterator helpers (`src/cbadc/utilities.py`)

A generator object is a state and a `next` function returning the result of the call and the new state.
An arbitrary underlying iterator is `src : ℕ → Res α`, the result of its n-th `next()`.
-/

namespace Cbadc.Streams

/-- State of the generator object of `random_control_signal`, `src/cbadc/utilities.py:292-319`.
`finished`: the generator frame has been left by an exception or return. -/
structure RandState where
  iteration : ℕ
  finished : Bool
  deriving DecidableEq, Repr

/-- Initial state: `src/cbadc/utilities.py:312-314` (seeding is part of the oracle `draw`). -/
def randInit : RandState := ⟨0, false⟩

/-- One `next()` of `random_control_signal(M, limit)`: `src/cbadc/utilities.py:315-319`.
`draw k` is the k-th result of `np.random.randint(2, size=M)`, an oracle. -/
def randNext {V : Type*} (limit : ℕ) (draw : ℕ → V) (st : RandState) : Res V × RandState :=
  if st.finished then (.error .stopIteration, st)
  else if st.iteration < limit then (.ok (draw st.iteration), ⟨st.iteration + 1, false⟩)
  else (.error (pep479 .stopIteration), ⟨st.iteration, true⟩)

/-- State of the generator object of `show_status`, `src/cbadc/utilities.py:522-539`.
`calls`: items requested from the underlying iterator so far (= `enumerate` counter). -/
structure ShowState where
  calls : ℕ
  finished : Bool
  deriving DecidableEq, Repr

/-- Initial state, `src/cbadc/utilities.py:533-536`. -/
def showInit : ShowState := ⟨0, false⟩

/-- One `next()` of `show_status(iterator, length)`: `src/cbadc/utilities.py:536-539`.
`tqdm` is taken to pass items and exceptions through unchanged (progress output is not modelled). -/
def showNext {V : Type*} (length : ℕ) (src : ℕ → Res V) (st : ShowState) : Res V × ShowState :=
  if st.finished then (.error .stopIteration, st)
  else
    match src st.calls with
    | .ok v =>
      if st.calls < length then (.ok v, ⟨st.calls + 1, false⟩)
      else (.error (pep479 .stopIteration), ⟨st.calls + 1, true⟩)
    | .error e => (.error e, ⟨st.calls + 1, true⟩)

/-- State after `k` calls of `next`.  (No source location: the iterator protocol.) -/
def stateAfter {V S : Type*} (next : S → Res V × S) (s0 : S) : ℕ → S
  | 0 => s0
  | k + 1 => (next (stateAfter next s0 k)).2

/-- Result of the `k`-th call (from 0) of `next`.  (No source location: the iterator protocol.) -/
def call {V S : Type*} (next : S → Res V × S) (s0 : S) (k : ℕ) : Res V :=
  (next (stateAfter next s0 k)).1

/-- Row assignment `data[index, :] = item` for a row of `L` entries, `src/cbadc/utilities.py:610`:
an item with `L` entries is copied, a single entry is broadcast, anything else is a `ValueError`. -/
def assignRow {K : Type*} (L : ℕ) (item : List K) : Res (List K) :=
  if item.length = L then .ok item
  else match item with
    | [v] => .ok (List.replicate L v)
    | _ => .error .valueError

/-- The loop `for index in range(size): data[index,:] = next(iterator)`,
`src/cbadc/utilities.py:609-610`, starting at the `start`-th call of the iterator; the second component is
the number of items requested. -/
def fillRows {K : Type*} (src : ℕ → Res (List K)) (L : ℕ) : ℕ → ℕ → Res (List (List K)) × ℕ
  | _, 0 => (.ok [], 0)
  | start, n + 1 =>
    match src start with
    | .error e => (.error e, 1)
    | .ok item =>
      match assignRow L item with
      | .error e => (.error e, 1)
      | .ok row =>
        let r := fillRows src L (start + 1) n
        (match r.1 with
          | .ok rows => .ok (row :: rows)
          | .error e => .error e, r.2 + 1)

/-- `iterator_to_numpy_array(iterator, size, L)`: `src/cbadc/utilities.py:589-611`. -/
def iteratorToArray {K : Type*} (src : ℕ → Res (List K)) (size L : ℤ) :
    Res (List (List K)) × ℕ :=
  if size < 1 ∨ L < 1 then (.error .exception, 0)
  else fillRows src L.toNat 0 size.toNat

end Cbadc.Streams
