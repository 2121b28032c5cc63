import Mathlib.Algebra.BigOperators.Intervals
import Mathlib.LinearAlgebra.Matrix.NonsingularInverse
import Verif.Model.Basic

/-!
# Analog systems (`src/cbadc/analog_system/analog_system.py`)

Matrices are numpy arrays: a shape and entries indexed by naturals (only indices inside the shape are
meaningful), so that shape errors are visible.  Exact arithmetic over a field `K`.
-/

namespace Cbadc.Analog
open Finset

variable {K : Type*} [Field K]

/-- A numpy array argument with one or two dimensions (arguments of
`src/cbadc/analog_system/analog_system.py:118-128`).  Arrays with other numbers of dimensions are not
modelled. -/
inductive Arr (K : Type*)
  | vec (n : ℕ) (f : ℕ → K)
  | mat (r c : ℕ) (f : ℕ → ℕ → K)

/-- `a.shape[0]` (e.g. `src/cbadc/analog_system/analog_system.py:174`). -/
def Arr.shape0 : Arr K → ℕ
  | .vec n _ => n
  | .mat r _ _ => r

/-- `a.shape[1]` (e.g. `src/cbadc/analog_system/analog_system.py:187`): a one-dimensional array raises
`IndexError`. -/
def Arr.shape1 : Arr K → Res ℕ
  | .vec _ _ => .error .indexError
  | .mat _ c _ => .ok c

/-- Entries of a two-dimensional array (a one-dimensional one never gets here),
`src/cbadc/analog_system/analog_system.py:165-172`. -/
def Arr.entries : Arr K → ℕ → ℕ → K
  | .vec _ f => fun r _ => f r
  | .mat _ _ f => f

/-- The attributes of an `AnalogSystem`, `src/cbadc/analog_system/analog_system.py:165-265`. -/
structure Sys (K : Type*) where
  N : ℕ
  L : ℕ
  M : ℕ
  Mt : ℕ
  Nt : ℕ
  A : ℕ → ℕ → K
  B : ℕ → ℕ → K
  CT : ℕ → ℕ → K
  Gamma : Option (ℕ → ℕ → K)
  GammaT : Option (ℕ → ℕ → K)
  D : ℕ → ℕ → K
  Bt : ℕ → ℕ → K
  At : ℕ → ℕ → K

/-- `Gamma`: `src/cbadc/analog_system/analog_system.py:171-182`; result `(Gamma, M)`. -/
def checkGamma (N : ℕ) : Option (Arr K) → Res (Option (ℕ → ℕ → K) × ℕ)
  | none => .ok (none, 0)
  | some g =>
    if g.shape0 ≠ N then .error .exception
    else
      match g.shape1 with
      | .error e => .error e
      | .ok M => .ok (some g.entries, M)

/-- `Gamma_tildeT`: `src/cbadc/analog_system/analog_system.py:184-197`; result `(Gamma_tildeT, M_tilde)`. -/
def checkGammaT (N : ℕ) : Option (Arr K) → Res (Option (ℕ → ℕ → K) × ℕ)
  | none => .ok (none, 0)
  | some g =>
    match g.shape1 with
    | .error e => .error e
    | .ok c => if c ≠ N then .error .exception else .ok (some g.entries, g.shape0)

/-- `B`: reshape of a vector and the row check, `src/cbadc/analog_system/analog_system.py:205-206,217-220`;
result `(B, L)`. -/
def checkB (N : ℕ) : Arr K → Res ((ℕ → ℕ → K) × ℕ)
  | .vec n f => if n ≠ N then .error .valueError else .ok (fun r _ => f r, 1)
  | .mat r c f => if r ≠ N then .error .exception else .ok (f, c)

/-- `CT`: reshape of a vector and the column check,
`src/cbadc/analog_system/analog_system.py:207-208,222-225`; result `(CT, N_tilde)`. -/
def checkCT (N : ℕ) : Arr K → Res ((ℕ → ℕ → K) × ℕ)
  | .vec n f => if n ≠ N then .error .valueError else .ok (fun _ c => f c, 1)
  | .mat r c f => if c ≠ N then .error .exception else .ok (f, r)

/-- The optional matrices `D`, `B_tilde`, `A_tilde`, each with an expected shape,
`src/cbadc/analog_system/analog_system.py:227-238,240-251,254-265`. -/
def checkOpt (r c : ℕ) : Option (Arr K) → Res (ℕ → ℕ → K)
  | none => .ok fun _ _ => 0
  | some d =>
    if d.shape0 ≠ r then .error .exception
    else
      match d.shape1 with
      | .error e => .error e
      | .ok c' => if c' ≠ c then .error .exception else .ok d.entries

/-- `AnalogSystem.__init__`, `src/cbadc/analog_system/analog_system.py:165-265`.  (The checks of `B` and `CT`
are merged with their reshapes; which of several exceptions is raised first can differ in that case.) -/
def Sys.new (A B CT : Arr K) (Gamma GammaT D Bt At : Option (Arr K)) : Res (Sys K) := do
  let (G, M) ← checkGamma A.shape0 Gamma
  let (GT, Mt) ← checkGammaT A.shape0 GammaT
  match A with
  | .vec _ _ => .error .indexError
  | .mat N c A' =>
    if N ≠ c then .error .exception
    else
      let (B', L) ← checkB N B
      let (C', Nt) ← checkCT N CT
      let D' ← checkOpt Nt L D
      let Bt' ← checkOpt Mt L Bt
      let At' ← checkOpt Mt M At
      .ok ⟨N, L, M, Mt, Nt, A', B', C', G, GT, D', Bt', At'⟩

/-- `np.dot(A, x)` for a matrix with `n` columns, one entry per row
(e.g. `src/cbadc/analog_system/analog_system.py:305`). -/
def dot (n : ℕ) (A : ℕ → ℕ → K) (x : ℕ → K) : ℕ → K := fun r => ∑ c ∈ range n, A r c * x c

/-- A one-dimensional array argument (state, input and control vectors),
`src/cbadc/analog_system/analog_system.py:276-278`. -/
structure Vec (K : Type*) where
  len : ℕ
  v : ℕ → K

/-- `np.dot(A, x)` with the shape check (e.g. `src/cbadc/analog_system/analog_system.py:305`). -/
def npDot (r c : ℕ) (A : ℕ → ℕ → K) (x : Vec K) : Res (Vec K) :=
  if x.len ≠ c then .error .valueError else .ok ⟨r, dot c A x.v⟩

/-- Sum of two equally long arrays (`src/cbadc/analog_system/analog_system.py:305,408-412`; broadcasting of
length-1 arrays does not occur there because both lengths are the same by construction). -/
def npAdd (a b : Vec K) : Vec K := ⟨a.len, fun i => a.v i + b.v i⟩

/-- `AnalogSystem.derivative`, `src/cbadc/analog_system/analog_system.py:276-305`.  Without `Gamma`
(`None`) the last product raises; the exception class is modelled as `TypeError` (numpy reports it as a
`TypeError` or, for an empty control vector, as a `ValueError`). -/
def Sys.derivative (g : Sys K) (x u s : Vec K) : Res (Vec K) := do
  let a ← npDot g.N g.N g.A x
  let b ← npDot g.N g.L g.B u
  match g.Gamma with
  | none => .error .typeError
  | some G =>
    let c ← npDot g.N g.M G s
    .ok (npAdd (npAdd a b) c)

/-- `AnalogSystem.signal_observation`, `src/cbadc/analog_system/analog_system.py:359-378`. -/
def Sys.signalObservation (g : Sys K) (x : Vec K) : Res (Vec K) := npDot g.Nt g.N g.CT x

/-- `AnalogSystem.control_observation`, `src/cbadc/analog_system/analog_system.py:380-412`.  With `u` but no
`s` the expression of line 407 is computed and dropped and `np.dot(A_tilde, None)` raises (modelled as
`TypeError`, as numpy does for a non-empty `A_tilde`); likewise without `Gamma_tildeT`. -/
def Sys.controlObservation (g : Sys K) (x : Vec K) (u s : Option (Vec K)) : Res (Vec K) :=
  match g.GammaT with
  | none => .error .typeError
  | some GT =>
    match u with
    | none => npDot g.Mt g.N GT x
    | some u => do
      let a ← npDot g.Mt g.N GT x
      let b ← npDot g.Mt g.L g.Bt u
      match s with
      | none => .error .typeError
      | some s =>
        let c ← npDot g.Mt g.M g.At s
        .ok (npAdd (npAdd a b) c)

/-- A numpy matrix with a known shape as a Mathlib matrix
(the arrays of `src/cbadc/analog_system/analog_system.py:433-447`). -/
def toM (r c : ℕ) (A : ℕ → ℕ → K) : Matrix (Fin r) (Fin c) K := Matrix.of fun i j => A i j

/-- `AnalogSystem._atf` at the complex frequency `s` (`complex(0, omega)` in the code),
`src/cbadc/analog_system/analog_system.py:433-438`.  `np.linalg.pinv` is the inverse for invertible
matrices, the only case used. -/
noncomputable def Sys.atf (g : Sys K) (s : K) : Matrix (Fin g.N) (Fin g.L) K :=
  (s • (1 : Matrix (Fin g.N) (Fin g.N) K) - toM g.N g.N g.A)⁻¹ * toM g.N g.L g.B

/-- `AnalogSystem.transfer_function_matrix` at one frequency (neither symbolic nor general),
`src/cbadc/analog_system/analog_system.py:507-562`. -/
noncomputable def Sys.tfm (g : Sys K) (s : K) : Matrix (Fin g.Nt) (Fin g.L) K :=
  toM g.Nt g.L g.D + toM g.Nt g.N g.CT * g.atf s

end Cbadc.Analog
