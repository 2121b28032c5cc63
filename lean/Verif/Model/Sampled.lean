import Verif.Model.NgSpice

/-!
# The sampled states of a circuit simulation (`src/cbadc/simulator/simulator.py`)

The class `NGSpiceSimulator` of this file also records the states.  ngspice is not modelled: the recorded voltages are
an arbitrary input.
-/

namespace Cbadc.NgSpice

/-- The raw file: the voltages of `Verif.Model.NgSpice` and those of the terminals `X{n}_P` and `X{n}_N` of the frontend,
`src/cbadc/simulator/simulator.py:191-222`. -/
structure RawStates extends Raw where
  xp : ℕ → ℕ → ℝ
  xn : ℕ → ℕ → ℝ

/-- One item of `zip(clk, *s_raw, *state_raw)`: `src/cbadc/simulator/simulator.py:207-226`, where `state_raw` has the
positive terminals before the negative ones (lines 214-216). -/
noncomputable def RawStates.item (raw : RawStates) (M N : ℕ) (vcm : ℝ) (i : ℕ) : List ℝ :=
  raw.clk i :: ((List.range M).map fun m => raw.v i m / (vcm * 2)) ++ (List.range N).map (raw.xp i)
    ++ (List.range N).map (raw.xn i)

/-- The slice `s[a:b]` of a tuple, `src/cbadc/simulator/simulator.py:231-238`. -/
def slice (a b : ℕ) (s : List ℝ) : List ℝ := (s.take b).drop a

/-- The local variables of `parse` and the two arrays it fills, by rows: `src/cbadc/simulator/simulator.py:90-107`,
`223-240`. -/
structure SState where
  trigger : Bool
  index : ℕ
  cv : ℕ → List ℝ
  sv : ℕ → List ℝ

/-- Body of the loop of `parse`: `src/cbadc/simulator/simulator.py:226-241`. -/
noncomputable def stepStates (size M N : ℕ) (vcm : ℝ) (raw : RawStates) (st : SState) (i : ℕ) : SState :=
  let s := raw.item M N vcm i
  if st.trigger = false ∧ s.getD 0 0 ≤ vcm then
    if st.index < size then
      { trigger := true, index := st.index + 1
        cv := Function.update st.cv st.index ((slice 1 (M + 1) s).map floatToTernary)
        sv := Function.update st.sv st.index (slice (1 + M) (1 + M + N) s) }
    else { st with trigger := true }
  else if st.trigger = true ∧ s.getD 0 0 > vcm then { st with trigger := false }
  else st

/-- `parse` of a new simulator: `src/cbadc/simulator/simulator.py:90-107`, `190-243`. -/
noncomputable def parseStates (size M N : ℕ) (vcm : ℝ) (raw : RawStates) : SState :=
  (List.range raw.n).foldl (stepStates size M N vcm raw)
    ⟨false, 0, fun _ => List.replicate M 0, fun _ => List.replicate N 0⟩

/-- An array of numbers: a vector, or a matrix by rows with its number of columns (`numpy`). -/
inductive Arr
  | vec (v : List ℝ)
  | mat (cols : ℕ) (rows : List (List ℝ))

/-- `np.hstack` of two arrays, as used in `src/cbadc/simulator/simulator.py:160`: vectors are put one behind the other,
matrices with as many rows side by side; `ValueError` for anything else. -/
def hstack : Arr → Arr → Res Arr
  | .vec a, .vec b => .ok (.vec (a ++ b))
  | .mat p a, .mat q b => if a.length = b.length then .ok (.mat (p + q) (a.zipWith (· ++ ·) b)) else .error .valueError
  | _, _ => .error .valueError

/-- `time_vector`, `np.arange(size) * T`: `src/cbadc/simulator/simulator.py:104-106`. -/
def timeVector (size : ℕ) (T : ℝ) : Arr := .vec ((List.range size).map fun k => (k : ℝ) * T)

/-- `get_sampled_state_trajectories()`: `src/cbadc/simulator/simulator.py:155-160`; `sv` is the attribute `state_vector`. -/
def sampledStates (size N : ℕ) (T : ℝ) (sv : ℕ → List ℝ) : Res (List String × Arr) :=
  match hstack (timeVector size T) (.mat N ((List.range size).map sv)) with
  | .error e => .error e
  | .ok a => .ok ("t" :: (List.range N).map (fun i => "x_" ++ (i + 1).repr), a)

end Cbadc.NgSpice
