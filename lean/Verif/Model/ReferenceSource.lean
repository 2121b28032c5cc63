import Mathlib.Algebra.Field.Defs
import Mathlib.Logic.Function.Basic
import Verif.Model.Basic

/-!
# Model of the reference source of the dither control circuit

`src/cbadc/circuit/components/reference_source.py`: the file with the random sequence that the simulator reads.
A line of the file is a time and a list of states; the printing of the numbers as text is left out.
-/

namespace Cbadc.Reference

variable {K : Type*} [Field K] [DecidableEq K]

/-- The states `0s`, `1s` and `Us`: `src/cbadc/circuit/components/reference_source.py:45-53`. -/
inductive Level
  | zero
  | one
  | undef
deriving DecidableEq

/-- `ternary_mapper(x)`: `src/cbadc/circuit/components/reference_source.py:45-53`. -/
def ternary (x : K) : Res Level :=
  if x = 1 / 2 then .ok .undef
  else if x = 0 then .ok .zero
  else if x = 1 then .ok .one
  else .error .valueError

/-- A line of the file: `src/cbadc/circuit/components/reference_source.py:60`. -/
structure Row (K : Type*) where
  time : K
  levels : List Level

/-- The lines of the file from line `k` on: `src/cbadc/circuit/components/reference_source.py:40-60`.  The times are
`np.arange(0, n * T, T)`, in exact arithmetic `n` of them.  The code converts the sequence column by column; as
every failure is a `ValueError`, the order does not matter. -/
def rows (T : K) (k : ℕ) : List (List K) → Res (List (Row K))
  | [] => .ok []
  | x :: xs =>
    match x.mapM ternary with
    | .error e => .error e
    | .ok l =>
      match rows T (k + 1) xs with
      | .error e => .error e
      | .ok rs => .ok (⟨k * T, l⟩ :: rs)

/-- The files of the working directory: `src/cbadc/circuit/components/reference_source.py:64-70`, `91-93`. -/
abbrev Files (K : Type*) := String → Option (List (Row K))

/-- `ReferenceSource(..., input_filename, pseudo_random_sequence, time_step)`:
`src/cbadc/circuit/components/reference_source.py:17-70`.  An existing file is not replaced (lines 64-70). -/
def construct (files : Files K) (name : String) (T : K) (seq : List (List K)) : Res (Files K) :=
  match rows T 0 seq with
  | .error e => .error e
  | .ok rs => .ok (if (files name).isSome then files else Function.update files name (some rs))

/-- `ReferenceSource.__del__`: `src/cbadc/circuit/components/reference_source.py:91-93`. -/
def delete (files : Files K) (name : String) : Files K :=
  if (files name).isSome then Function.update files name none else files

/-- What happens to reference sources: one is created or one with the given file name is collected.
`src/cbadc/circuit/components/reference_source.py:17`, `91`. -/
inductive Op (K : Type*)
  | create (name : String) (T : K) (seq : List (List K))
  | collect (name : String)

/-- One of them; a constructor that raises leaves the files as they were:
`src/cbadc/circuit/components/reference_source.py:17-93`. -/
def exec (files : Files K) : Op K → Files K
  | .create name T seq =>
    match construct files name T seq with
    | .error _ => files
    | .ok f => f
  | .collect name => delete files name

end Cbadc.Reference
