import Verif.Model.Estimator
import Verif.Model.Parallel

/-!
# Handing a control signal to an estimator

`estimator(control_signal)` replaces the iterator and nothing else.  In the models of the estimators the iterator is an
argument of `next` and the state counts the calls made on it, so handing over another one starts this count anew.
-/

namespace Cbadc.Estimator

variable {K : Type*} [CommRing K] {N M L : ℕ}

/-- `set_iterator`, `__call__`: `src/cbadc/digital_estimator/batch_estimator.py:234-242`, `337-338`, inherited by
`FIRFilter`. -/
def FIRState.given (st : FIRState K M) : FIRState K M := { st with calls := 0 }

/-- `set_iterator`, `__call__`: `src/cbadc/digital_estimator/batch_estimator.py:234-242`, `337-338`, inherited by
`IIRFilter`. -/
def IIRState.given (st : IIRState K N M) : IIRState K N M := { st with calls := 0 }

/-- `set_iterator`, `__call__`: `src/cbadc/digital_estimator/batch_estimator.py:234-242`, `337-338`. -/
def BatchState.given (st : BatchState K N M L) : BatchState K N M L := { st with calls := 0 }

/-- `set_iterator`, `__call__`: `src/cbadc/digital_estimator/batch_estimator.py:234-242`, `337-338`, inherited by
`ParallelEstimator`. -/
def ParState.given (st : ParState N M L) : ParState N M L := { st with calls := 0 }

/-- The first check of `__next__`: no iterator has been set.  `src/cbadc/digital_estimator/batch_estimator.py:345-346`,
`src/cbadc/digital_estimator/fir_estimator.py:219-220`, `src/cbadc/digital_estimator/iir_estimator.py:171-172`,
`src/cbadc/digital_estimator/parallel_digital_estimator.py:260-261`. -/
def nextSet {S V W : Type*} (next : (ℕ → Res V) → S → Res W × S) (src : Option (ℕ → Res V)) (st : S) : Res W × S :=
  match src with
  | none => (.error .exception, st)
  | some s => next s st

end Cbadc.Estimator
