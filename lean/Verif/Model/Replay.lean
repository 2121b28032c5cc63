import Mathlib.Data.Int.Cast.Basic
import Verif.Model.Bytes

/-!
# Control signals read back from storage (`src/cbadc/utilities.py`)

`read_byte_stream_from_url`, and a generator of control vectors as the source of an estimator.
-/

namespace Cbadc.Replay
open Cbadc.Bytes

/-- `request.iter_content(chunk_size=n)` of a body: pieces of `n` bytes, the last one possibly shorter, none empty
(`src/cbadc/utilities.py:226-230`).  `fuel` bounds the number of pieces; `chunks` supplies the length of the body, which
is enough for `n ≥ 1`.  Simplification: connection errors are not modelled, and the server is taken to answer in full
pieces (`requests` may cut a chunked transfer at other places). -/
def chunksGo (n : ℕ) : ℕ → List ℕ → List (List ℕ)
  | 0, _ => []
  | fuel + 1, content => if content = [] then [] else content.take n :: chunksGo n fuel (content.drop n)

/-- All pieces of one body: `src/cbadc/utilities.py:224-232`. -/
def chunks (n : ℕ) (content : List ℕ) : List (List ℕ) := chunksGo n content.length content

/-- `read_byte_stream_from_url(urls, M)` consumed to its end: `src/cbadc/utilities.py:200-233`; `bodies` are what the
addresses deliver.  The final `raise StopIteration` (line 233) inside the generator is turned into `RuntimeError`. -/
def readUrls (M : ℕ) (bodies : List (List ℕ)) : Trace (List ℕ) :=
  match numberOfBytesSelector M with
  | .error e => ⟨[], e⟩
  | .ok f => ⟨bodies.flatMap (chunks f.nbytes), pep479 .stopIteration⟩

/-- The `k`-th `next()` of a generator of control vectors, as the estimators read it
(`src/cbadc/digital_estimator/fir_estimator.py:235`, `src/cbadc/digital_estimator/iir_estimator.py:189`,
`src/cbadc/digital_estimator/batch_estimator.py:371`): the items, then once the exception that ends the generator, and
`StopIteration` from the finished generator ever after.  The `int8` entries are taken as numbers. -/
def source {K : Type*} [IntCast K] (M : ℕ) (t : Trace (List ℤ)) (k : ℕ) : Res (Fin M → K) :=
  match t.items[k]? with
  | some v => .ok fun m => ((v.getD m 0 : ℤ) : K)
  | none => if k = t.items.length then .error t.fin else .error .stopIteration

end Cbadc.Replay
