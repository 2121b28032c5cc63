import Mathlib.Data.Complex.Basic
import Mathlib.Data.Matrix.Mul
import Verif.Model.Estimator

/-!
# The parallel estimator (`src/cbadc/digital_estimator/parallel_digital_estimator.py`)

Exact real and complex arithmetic.  The eigen-decompositions returned by `np.linalg.eig` (lines 191, 194)
and the pseudo-inverses of the eigenvector matrices (lines 193, 196) are parameters.
-/

namespace Cbadc.Estimator
open Matrix

variable {N M L : ℕ}

/-- `np.array(x, dtype=np.complex128)` of a real matrix. -/
noncomputable def toC {m n : Type*} (A : Matrix m n ℝ) : Matrix m n ℂ := A.map Complex.ofReal

/-- Result of `np.linalg.eig` followed by `np.linalg.pinv` of the eigenvectors:
`src/cbadc/digital_estimator/parallel_digital_estimator.py:191-196`. -/
structure Eig (N : ℕ) where
  a : Fin N → ℂ
  Q : Matrix (Fin N) (Fin N) ℂ
  Qinv : Matrix (Fin N) (Fin N) ℂ

/-- What a correct eigen-decomposition of a diagonalisable matrix satisfies. -/
def Eig.Valid (e : Eig N) (A : Matrix (Fin N) (Fin N) ℝ) : Prop :=
  toC A * e.Q = e.Q * Matrix.diagonal e.a ∧ e.Q * e.Qinv = 1

/-- A constructed `ParallelEstimator`:
`src/cbadc/digital_estimator/parallel_digital_estimator.py:133-202`. -/
structure Parallel (N M L : ℕ) where
  K1 : ℕ
  K2 : ℕ
  limit : ℕ
  fa : Fin N → ℂ
  ba : Fin N → ℂ
  fb : Matrix (Fin N) (Fin M) ℂ
  bb : Matrix (Fin N) (Fin M) ℂ
  fw : Matrix (Fin L) (Fin N) ℂ
  bw : Matrix (Fin L) (Fin N) ℂ

/-- `ParallelEstimator.__init__`: `src/cbadc/digital_estimator/parallel_digital_estimator.py:133-202`
(checks of lines 133, 136, 143, 152 and the coefficient transformation of lines 198-202). -/
noncomputable def Parallel.new (c : Coeffs ℝ N M L) (ef eb : Eig N) (K1 K2 : ℤ) (eta2 : ℝ) (ds : ℤ) (limit : ℕ) :
    Res (Parallel N M L) :=
  if K1 < 1 then .error .exception
  else if K2 < 0 then .error .exception
  else if eta2 < 0 then .error .exception
  else if ds ≠ 1 then .error .notImplemented
  else .ok
    { K1 := K1.toNat, K2 := K2.toNat, limit := limit
      fa := ef.a, ba := eb.a
      fb := ef.Qinv * toC c.Bf, bb := eb.Qinv * toC c.Bb
      fw := -(toC c.WT * ef.Q), bw := toC c.WT * eb.Q }

/-- Mutable state: `src/cbadc/digital_estimator/parallel_digital_estimator.py:158-164,204-209`, and the
number of `next()` calls made on the control-signal iterator.  The control buffer holds the raw samples. -/
structure ParState (N M L : ℕ) where
  cs : ℕ → Fin M → ℝ
  inBuffer : ℕ
  estimate : ℕ → Fin L → ℝ
  mean : Fin N → ℂ
  pointer : ℕ
  stop : Bool
  iteration : ℕ
  calls : ℕ

/-- Initial state: `src/cbadc/digital_estimator/parallel_digital_estimator.py:158-164,204-209`. -/
def Parallel.init (f : Parallel N M L) : ParState N M L :=
  ⟨fun _ => 0, 0, fun _ => 0, fun _ => 0, f.K1, false, 0, 0⟩

/-- The inner loop over controls, `src/cbadc/digital_estimator/parallel_digital_estimator.py:226-230` and
`235-239`: add `b` where the sample is truthy (non-zero), subtract it otherwise.  The sequential `+=`, `-=`
are written as one sum. -/
noncomputable def parCtrl (b : Fin M → ℂ) (s : Fin M → ℝ) : ℂ :=
  haveI : DecidableEq ℝ := Classical.decEq ℝ
  ∑ m, if s m ≠ 0 then b m else -(b m)

/-- Forward recursion of one mode, `src/cbadc/digital_estimator/parallel_digital_estimator.py:221-231`:
`mean` before iteration `k`. -/
noncomputable def parForward (a : ℂ) (b : Fin M → ℂ) (cs : ℕ → Fin M → ℝ) (m0 : ℂ) : ℕ → ℂ
  | 0 => m0
  | k + 1 => a * parForward a b cs m0 k + parCtrl b (cs k)

/-- Backward recursion of one mode, `src/cbadc/digital_estimator/parallel_digital_estimator.py:232-239`:
`mean` after `i` iterations (`k3 = K3 - 1, K3 - 2, ...`). -/
noncomputable def parBackward (a : ℂ) (b : Fin M → ℂ) (K3 : ℕ) (cs : ℕ → Fin M → ℝ) : ℕ → ℂ
  | 0 => 0
  | i + 1 => a * parBackward a b K3 cs i + parCtrl b (cs (K3 - 1 - i))

/-- `_compute_batch`: `src/cbadc/digital_estimator/parallel_digital_estimator.py:211-244`.  The in-place
accumulation of `_estimate` over the modes `n` is written as a sum over `n`. -/
noncomputable def Parallel.computeBatch (f : Parallel N M L) (st : ParState N M L) : Res (ParState N M L) :=
  let K3 := f.K1 + f.K2
  if st.inBuffer < K3 then .error .exception
  else .ok { st with
    estimate := fun k l => ∑ n,
      ((f.fw l n * parForward (f.fa n) (f.fb n) st.cs (st.mean n) k).re +
        (f.bw l n * parBackward (f.ba n) (f.bb n) K3 st.cs (K3 - k)).re)
    mean := fun n => parForward (f.fa n) (f.fb n) st.cs (st.mean n) f.K1
    cs := roll K3 f.K1 st.cs
    inBuffer := st.inBuffer - f.K1 }

/-- `_input`: `src/cbadc/digital_estimator/parallel_digital_estimator.py:246-253`. -/
def Parallel.input (f : Parallel N M L) (st : ParState N M L) (s : Fin M → ℝ) :
    Res (Bool × ParState N M L) :=
  let K3 := f.K1 + f.K2
  if st.inBuffer = K3 then .error .exception
  else
    .ok (decide (K3 - 1 < st.inBuffer + 1),
      { st with cs := Function.update st.cs st.inBuffer s, inBuffer := st.inBuffer + 1 })

/-- The loop `while not full`, `src/cbadc/digital_estimator/parallel_digital_estimator.py:282-291`
(`fuel` as in `Batch.fill`). -/
def Parallel.fill (f : Parallel N M L) (src : ℕ → Res (Fin M → ℝ)) :
    ℕ → ParState N M L → Res Unit × ParState N M L
  | 0, st => (.error .exception, st)
  | fuel + 1, st =>
    let go (s : Fin M → ℝ) (st' : ParState N M L) : Res Unit × ParState N M L :=
      match f.input st' s with
      | .error e => (.error e, st')
      | .ok (full, st'') => if full then (.ok (), st'') else Parallel.fill f src fuel st''
    match src st.calls with
    | .ok s => go s { st with calls := st.calls + 1 }
    | .error .runtimeError => go 0 { st with calls := st.calls + 1, stop := true }
    | .error e => (.error e, { st with calls := st.calls + 1 })

/-- `ParallelEstimator.__next__` with its self-recursion (line 300) unrolled:
`src/cbadc/digital_estimator/parallel_digital_estimator.py:258-300` (`fuel` as in `Batch.nextFuel`). -/
noncomputable def Parallel.nextFuel (f : Parallel N M L) (src : ℕ → Res (Fin M → ℝ)) :
    ℕ → ParState N M L → Res (Fin L → ℝ) × ParState N M L
  | 0, st => (.error .runtimeError, st)
  | fuel + 1, st =>
    if f.limit < st.iteration then (.error .stopIteration, st)
    else
      let st1 := { st with iteration := st.iteration + 1 }
      if st1.pointer < f.K1 then
        (.ok (st1.estimate st1.pointer), { st1 with pointer := st1.pointer + 1 })
      else if st1.stop then (.error .stopIteration, st1)
      else
        match f.fill src (f.K1 + f.K2 + 1) st1 with
        | (.error e, st2) => (.error e, st2)
        | (.ok (), st2) =>
          match f.computeBatch st2 with
          | .error e => (.error e, st2)
          | .ok st3 => Parallel.nextFuel f src fuel { st3 with pointer := st3.pointer - f.K1 }

/-- `ParallelEstimator.__next__`: `src/cbadc/digital_estimator/parallel_digital_estimator.py:258-300`. -/
noncomputable def Parallel.next (f : Parallel N M L) (src : ℕ → Res (Fin M → ℝ)) (st : ParState N M L) :
    Res (Fin L → ℝ) × ParState N M L :=
  f.nextFuel src 2 st

end Cbadc.Estimator
