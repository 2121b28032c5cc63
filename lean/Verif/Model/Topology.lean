import Verif.Model.AnalogSystem

/-!
# Combining analog systems (`src/cbadc/analog_system/topology.py`)
-/

namespace Cbadc.Analog
open Finset

variable {K : Type*} [Field K]

/-- Slice assignment `X[r0:r1, c0:c1] = Y` (e.g. `src/cbadc/analog_system/topology.py:72-73`). -/
def blockSet (r0 r1 c0 c1 : ℕ) (X Y : ℕ → ℕ → K) : ℕ → ℕ → K := fun r c =>
  if r0 ≤ r ∧ r < r1 ∧ c0 ≤ c ∧ c < c1 then Y (r - r0) (c - c0) else X r c

/-- `np.dot(X, Y)` of matrices, `n` the common dimension (e.g. `src/cbadc/analog_system/topology.py:72`). -/
def mm (n : ℕ) (X Y : ℕ → ℕ → K) : ℕ → ℕ → K := fun r c => ∑ k ∈ range n, X r k * Y k c

/-- Local variables of `chain`, `src/cbadc/analog_system/topology.py:50-66`; `p` is the number of rows of
`CT` and of `D`. -/
structure ChainAcc (K : Type*) where
  n : ℕ
  m : ℕ
  mt : ℕ
  p : ℕ
  A : ℕ → ℕ → K
  B : ℕ → ℕ → K
  CT : ℕ → ℕ → K
  D : ℕ → ℕ → K
  At : ℕ → ℕ → K
  Gamma : ℕ → ℕ → K
  GammaT : ℕ → ℕ → K

/-- Assigning a possibly missing block; a missing `Gamma` / `Gamma_tildeT` has zero columns / rows, so the
assignment is empty (`src/cbadc/analog_system/topology.py:85,87,163,164`). -/
def optBlock : Option (ℕ → ℕ → K) → ℕ → ℕ → K
  | none => fun _ _ => 0
  | some G => G

/-- Loop body of `chain`, `src/cbadc/analog_system/topology.py:67-91`; `N` and `L` are the total state
dimension and the number of inputs.  `np.dot` raises `ValueError` when the inner dimensions differ. -/
def chainStep (N L : ℕ) (a : ChainAcc K) (g : Sys K) : Res (ChainAcc K) :=
  if g.L ≠ a.p then .error .valueError
  else
    let nEnd := a.n + g.N
    let mEnd := a.m + g.M
    let mtEnd := a.mt + g.Mt
    .ok
      { n := nEnd
        m := mEnd
        mt := mtEnd
        p := g.Nt
        A := blockSet a.n nEnd a.n nEnd (blockSet a.n nEnd 0 N a.A (mm a.p g.B a.CT)) g.A
        B := blockSet a.n nEnd 0 L a.B (mm a.p g.B a.D)
        D := mm a.p g.D a.D
        CT := blockSet 0 g.Nt a.n nEnd (mm a.p g.D a.CT) g.CT
        At := blockSet a.mt mtEnd a.m mEnd a.At g.At
        Gamma := blockSet a.n nEnd a.m mEnd a.Gamma (optBlock g.Gamma)
        GammaT := blockSet a.mt mtEnd a.n nEnd a.GammaT (optBlock g.GammaT) }

/-- The loop of `chain`, `src/cbadc/analog_system/topology.py:67-91`. -/
def chainLoop (N L : ℕ) : ChainAcc K → List (Sys K) → Res (ChainAcc K)
  | a, [] => .ok a
  | a, g :: l =>
    match chainStep N L a g with
    | .error e => .error e
    | .ok a' => chainLoop N L a' l

/-- The matrices before the loop of `chain`, `src/cbadc/analog_system/topology.py:50-66`, for first system
`g`. -/
def chainInit (g : Sys K) : ChainAcc K where
  n := 0
  m := 0
  mt := 0
  p := g.Nt
  A := fun _ _ => 0
  B := fun _ _ => 0
  CT := blockSet 0 g.Nt 0 g.N (fun _ _ => 0) g.CT
  D := fun r c => if r = c then 1 else 0
  At := fun _ _ => 0
  Gamma := fun _ _ => 0
  GammaT := fun _ _ => 0

/-- Sum of an attribute over the systems (`src/cbadc/analog_system/topology.py:43-47,129-137`). -/
def total (f : Sys K → ℕ) (l : List (Sys K)) : ℕ := (l.map f).sum

/-- `chain`, `src/cbadc/analog_system/topology.py:8-94`. -/
def chain (l : List (Sys K)) : Res (Sys K) :=
  match l with
  | [] => .error .indexError
  | g :: _ =>
    let N := total Sys.N l
    let M := total Sys.M l
    let Mt := total Sys.Mt l
    match chainLoop N g.L (chainInit g) l with
    | .error e => .error e
    | .ok a =>
      Sys.new (.mat N N a.A) (.mat N g.L a.B) (.mat a.p N a.CT) (some (.mat N M a.Gamma))
        (some (.mat Mt N a.GammaT)) (some (.mat a.p g.L a.D)) (some (.mat Mt g.L fun _ _ => 0))
        (some (.mat Mt M a.At))

/-- One of the matrices of `stack`: the loop of `src/cbadc/analog_system/topology.py:153-174` restricted to the
array with block sizes `R`, `C` and blocks `F`, at running offsets `r0`, `c0` (the arrays are independent of
each other, so each gets its own loop here). -/
def stackBlocks (R C : Sys K → ℕ) (F : Sys K → ℕ → ℕ → K) :
    ℕ → ℕ → (ℕ → ℕ → K) → List (Sys K) → ℕ → ℕ → K
  | _, _, X, [] => X
  | r0, c0, X, g :: l =>
    stackBlocks R C F (r0 + R g) (c0 + C g) (blockSet r0 (r0 + R g) c0 (c0 + C g) X (F g)) l

/-- A matrix of `stack` starting from zeros, `src/cbadc/analog_system/topology.py:139-146,153-174`. -/
def stackMat (R C : Sys K → ℕ) (F : Sys K → ℕ → ℕ → K) (l : List (Sys K)) : ℕ → ℕ → K :=
  stackBlocks R C F 0 0 (fun _ _ => 0) l

/-- `stack`, `src/cbadc/analog_system/topology.py:97-177`.  (`np.zeros` of the float sum of an empty list
raises `TypeError`.) -/
def stack (l : List (Sys K)) : Res (Sys K) :=
  if l = [] then .error .typeError
  else
    let N := total Sys.N l
    let M := total Sys.M l
    let Mt := total Sys.Mt l
    let L := total Sys.L l
    let Nt := total Sys.Nt l
    Sys.new (.mat N N (stackMat Sys.N Sys.N Sys.A l)) (.mat N L (stackMat Sys.N Sys.L Sys.B l))
      (.mat Nt N (stackMat Sys.Nt Sys.N Sys.CT l))
      (some (.mat N M (stackMat Sys.N Sys.M (fun g => optBlock g.Gamma) l)))
      (some (.mat Mt N (stackMat Sys.Mt Sys.N (fun g => optBlock g.GammaT) l)))
      (some (.mat Nt L (stackMat Sys.Nt Sys.L Sys.D l))) (some (.mat Mt L fun _ _ => 0))
      (some (.mat Mt M (stackMat Sys.Mt Sys.M Sys.At l)))

/-- The tuple `(A, B, CT, D)` returned by the realisation functions
(`src/cbadc/analog_system/topology.py:285,369,417`) with its order; single input and output. -/
structure ABCD (K : Type*) where
  n : ℕ
  A : ℕ → ℕ → K
  B : ℕ → ℕ → K
  CT : ℕ → ℕ → K
  D : ℕ → ℕ → K

/-- `tf2abcd`, `src/cbadc/analog_system/topology.py:372-417`, with `b = [b_L, ..., b_0]` and
`a = [a_{L-1}, ..., a_0]`.  `A[-1, :]` of an empty matrix raises `IndexError`. -/
def tf2abcd (b a : List K) : Res (ABCD K) :=
  if b.length ≠ a.length + 1 then .error .exception
  else if a.length = 0 then .error .indexError
  else
    let L := a.length
    .ok
      { n := L
        A := fun r c =>
          if r = L - 1 then -(a.reverse.getD c 0) else if c = r + 1 then 1 else 0
        B := fun r _ => if r = L - 1 then 1 else 0
        CT := fun _ c => (List.zipWith (fun bi ai => bi - b.getD 0 0 * ai) b.tail a).reverse.getD c 0
        D := fun _ _ => b.getD 0 0 }

/-- A row of a second-order-section array, `src/cbadc/analog_system/topology.py:348-353`. -/
structure Sos (K : Type*) where
  b0 : K
  b1 : K
  b2 : K
  a0 : K
  a1 : K
  a2 : K

/-- The system of one section, `src/cbadc/analog_system/topology.py:348-367`.  The normalisation by `a_0` is
the identity for `a_0 = 1`, so the test of line 355 is not visible in exact arithmetic; `a_0 = 0` (numpy:
infinities) is not modelled. -/
def biquad (q : Sos K) : Res (Sys K) :=
  let b0 := q.b0 / q.a0
  let b1 := q.b1 / q.a0
  let b2 := q.b2 / q.a0
  let a1 := q.a1 / q.a0
  let a2 := q.a2 / q.a0
  Sys.new
    (.mat 2 2 fun r c => if r = 0 then (if c = 0 then 0 else 1) else (if c = 0 then -a2 else -a1))
    (.mat 2 1 fun r _ => if r = 0 then 0 else 1)
    (.mat 1 2 fun _ c => if c = 0 then b2 - b0 * a2 else b1 - b0 * a1)
    none none (some (.mat 1 1 fun _ _ => b0)) none none

/-- `(chained.A, chained.B, chained.CT, chained.D)`,
`src/cbadc/analog_system/topology.py:285,369`. -/
def toABCD (g : Sys K) : ABCD K := ⟨g.N, g.A, g.B, g.CT, g.D⟩

/-- `sos2abcd`, `src/cbadc/analog_system/topology.py:310-369`. -/
def sos2abcd (sos : List (Sos K)) : Res (ABCD K) := do
  let l ← sos.mapM biquad
  let g ← chain l
  .ok (toABCD g)

end Cbadc.Analog
