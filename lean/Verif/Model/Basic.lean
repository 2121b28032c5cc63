import Mathlib.Tactic.TypeStar

/-!
# Exceptions as values

Shared by all model files.
-/

namespace Cbadc

/-- The exception classes raised by the modelled code.

* `stopIteration`: end of an iterator;
* `runtimeError`: raised explicitly, and by the interpreter when a generator body lets a
  `StopIteration` escape (PEP 479), e.g. `src/cbadc/utilities.py:197,319,538`;
* `structError`: `struct.pack` / `struct.unpack` (`src/cbadc/utilities.py:79,117`);
* `arithmeticError`: `src/cbadc/utilities.py:667,685`;
* `exception`: a plain `raise Exception(...)`, e.g. `src/cbadc/utilities.py:50,607`;
* the others are raised by numpy / the interpreter. -/
inductive Exc
  | stopIteration | runtimeError | typeError | valueError | indexError | keyError
  | structError | arithmeticError | zeroDivision | exception | notImplemented
  | deprecationWarning | attributeError | nameError
  deriving DecidableEq, Repr

/-- Result of a Python call: a value or an exception.  No single source location: it models
`return` / `raise` everywhere. -/
abbrev Res := Except Exc

/-- PEP 479, applied to an exception leaving the body of a generator function such as
`src/cbadc/utilities.py:292-319` (the `raise StopIteration` of line 319). -/
def pep479 : Exc → Exc
  | .stopIteration => .runtimeError
  | e => e

/-- What a consumer observes of an iterator: the items delivered and the exception that ends it.
(No single source location: the iterator protocol.)  Infinite streams are covered by their finite
prefixes because all modelled generators are causal. -/
structure Trace (α : Type*) where
  items : List α
  fin : Exc
  deriving DecidableEq, Repr

/-- A generator of the form `for a in source: yield f(a)`, as in
`src/cbadc/utilities.py:73-79` and `src/cbadc/utilities.py:114-122`.  A `StopIteration` of the source
ends the `for` loop, hence the generator, normally; any other exception of the source propagates; an
exception raised by the body leaves the generator through PEP 479. -/
def genMap {α β : Type*} (f : α → Res β) : List α → Exc → Trace β
  | [], e => ⟨[], e⟩
  | a :: as, e =>
    match f a with
    | .ok b => let r := genMap f as e; ⟨b :: r.items, r.fin⟩
    | .error x => ⟨[], pep479 x⟩

end Cbadc
