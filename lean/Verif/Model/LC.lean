import Verif.Model.Circuit

/-!
# The LC frontend

`src/cbadc/circuit/lc_tank.py`: the ladder of inductors and capacitors with its state-space models and its netlist.
Exact arithmetic; the numerical solver and the computation of the global control are parameters.  The clock and the digital
controls are passed on unchanged and left out.
-/

namespace Cbadc.Circuit

open Analog

section

variable {K : Type*} [Field K] [LinearOrder K]

/-- The system matrix of the ladder: `src/cbadc/circuit/lc_tank.py:166`, `171-176`, where the first `M` states are the
capacitor voltages and the other `M - 1` the inductor currents. -/
def lcA (M : ℕ) (L C Rin : K) (r c : ℕ) : K :=
  if r = 0 ∧ c = 0 then -1 / (Rin * C)
  else if M ≤ r ∧ c < M then ((if c = r - M then 1 else 0) - (if c = r - M + 1 then 1 else 0)) / (2 * L)
  else if r < M ∧ M ≤ c then (-(if c - M = r then 1 else 0) + (if c - M + 1 = r then 1 else 0)) / C
  else 0

/-- The input matrix: `src/cbadc/circuit/lc_tank.py:167`, `178`. -/
def lcB (C Rin : K) (r c : ℕ) : K := if r = 0 ∧ c = 0 then 1 / (Rin * C) else 0

/-- A control input matrix with the gains on the diagonal of its upper part: `src/cbadc/circuit/lc_tank.py:168`, `180-182`,
`200`. -/
def lcGamma (gain : ℕ → K) (r c : ℕ) : K := if r = c then gain c else 0

/-- `np.eye`: e.g. `src/cbadc/circuit/lc_tank.py:189`. -/
def eye (r c : ℕ) : K := if r = c then 1 else 0

/-- The step `step`: `src/cbadc/circuit/lc_tank.py:185-186`. -/
def lcStep (t : K) : K := if t > 0 then 1 else 0

/-- `input_derivative`: `src/cbadc/circuit/lc_tank.py:116-119`; `B` has one column. -/
def inputDerivative (g : Sys K) (t : K) (x : ℕ → K) (n : ℕ) : K := dot g.N g.A x n + g.B n 0 * lcStep t

/-- `control_derivative`: `src/cbadc/circuit/lc_tank.py:130-134`. -/
def controlDerivative (g : Sys K) (m : ℕ) (_t : K) (x : ℕ → K) (n : ℕ) : K :=
  dot g.N g.A x n + if n = m then 1 else 0

/-- `_exponential_decay`: `src/cbadc/circuit/lc_tank.py:112-144`.  `solve N T f` is the state at time `T` that
`scipy.integrate.solve_ivp` returns for `N` states starting at zero and the derivative `f`.  A response of zero energy makes
numpy divide by zero (a warning); here the quotient is zero then. -/
def exponentialDecay (solve : ℕ → K → (K → (ℕ → K) → ℕ → K) → ℕ → K) (T : K) (g : Sys K) (m : ℕ) : K :=
  let y := solve g.N T (inputDerivative g)
  let a := solve g.N T (controlDerivative g m)
  (∑ n ∈ Finset.range g.N, y n * a n) / ∑ n ∈ Finset.range g.N, a n * a n

/-- The transconductors of the control `m`: `src/cbadc/circuit/lc_tank.py:242-256`; the constructor of `OTA` puts a `G` in
front of the name (`src/cbadc/circuit/components/ota.py:22-23`). -/
def lcOta (suf : String) (gain : ℕ → K) (C : K) (m : ℕ) : Part Obj K :=
  ⟨fmt "Ggm" m suf, .vccs |gain m * C / 2|, otaPins.map (.pin (fmt "Ggm" m suf))⟩

/-- The connections of one round of the last loop of the constructor: `src/cbadc/circuit/lc_tank.py:264-307`. -/
def lcRound (m : ℕ) : List (Op Obj K) :=
  [.conn (.own "VDD") (.pin (fmt "Ggm" m "_p") "VDD"), .conn (.own "VSS") (.pin (fmt "Ggm" m "_p") "VSS"),
   .conn (.own "VDD") (.pin (fmt "Ggm" m "_p") "OUT_P"),
   .conn (.own (fmt "X" m "_P")) (.pin (fmt "Ggm" m "_p") "OUT_N"),
   .conn (.own (fmt "OUT" m "_P")) (.pin (fmt "Ggm" m "_p") "IN_P"),
   .conn (.own (fmt "OUT" m "_N")) (.pin (fmt "Ggm" m "_p") "IN_N"),
   .conn (.own "VDD") (.pin (fmt "Ggm" m "_n") "VDD"), .conn (.own "VSS") (.pin (fmt "Ggm" m "_n") "VSS"),
   .conn (.own "VSS") (.pin (fmt "Ggm" m "_n") "OUT_N"),
   .conn (.own (fmt "X" m "_N")) (.pin (fmt "Ggm" m "_n") "OUT_P"),
   .conn (.own (fmt "OUT" m "_P")) (.pin (fmt "Ggm" m "_n") "IN_P"),
   .conn (.own (fmt "OUT" m "_N")) (.pin (fmt "Ggm" m "_n") "IN_N"),
   .conn (.own (fmt "X" m "_P")) (.num (fmt "C_" m "") 0),
   .conn (.own (fmt "X" m "_N")) (.num (fmt "C_" m "") 1)]
    ++ (if m = 0 then
          [.conn (.own (fmt "X" m "_P")) (.num "Rin_p" 1), .conn (.own (fmt "X" m "_N")) (.num "Rin_n" 1),
           .conn (.own (fmt "IN" 0 "_P")) (.num "Rin_p" 0), .conn (.own (fmt "IN" 0 "_N")) (.num "Rin_n" 0)]
        else
          [.conn (.own (fmt "X" (m - 1) "_P")) (.num (fmt "Lp_" (m - 1) "") 0),
           .conn (.own (fmt "X" m "_P")) (.num (fmt "Lp_" (m - 1) "") 1),
           .conn (.own (fmt "X" (m - 1) "_N")) (.num (fmt "Ln_" (m - 1) "") 0),
           .conn (.own (fmt "X" m "_N")) (.num (fmt "Ln_" (m - 1) "") 1)])

/-- All statements that build the sub-circuit: `src/cbadc/circuit/lc_tank.py:215-307` and
`src/cbadc/circuit/analog_frontend.py:19-121`, for a frontend with `M` states, one input and `M` controls. -/
def lcOps (M : ℕ) (L C Rin : K) (gain : ℕ → K) : List (Op Obj K) :=
  controlOps "OUT" M 1 M
    ++ ((List.range (M - 1)).map fun i => .add ⟨fmt "Lp_" i "", .ind L, twoPin (fmt "Lp_" i "")⟩)
    ++ ((List.range (M - 1)).map fun i => .add ⟨fmt "Ln_" i "", .ind L, twoPin (fmt "Ln_" i "")⟩)
    ++ ((List.range M).map fun i => .add ⟨fmt "C_" i "", .cap C, twoPin (fmt "C_" i "")⟩)
    ++ [.add ⟨"Rin_p", .res Rin, twoPin "Rin_p"⟩, .add ⟨"Rin_n", .res Rin, twoPin "Rin_n"⟩]
    ++ ((List.range M).map fun m => .add (lcOta "_p" gain C m))
    ++ ((List.range M).map fun m => .add (lcOta "_n" gain C m))
    ++ ((List.range M).flatMap lcRound)

/-- What the constructor leaves behind: `extended_analog_frontend.analog_system`, `analog_frontend.analog_system` and the
sub-circuit.  `src/cbadc/circuit/lc_tank.py:207-232`. -/
structure LCFrontend (K : Type*) where
  extended : Sys K
  reduced : Sys K
  circuit : Sub Obj K

/-- The constructor `LCFrontend(...)`: `src/cbadc/circuit/lc_tank.py:152-307`.  `solve` is the numerical solver (see
`exponentialDecay`); `glob g` are the matrices `Gamma_tildeT`, `B_tilde` and `A_tilde` that `get_global_control` computes for
`g` and the clock (see C104), which leaves the other matrices as they are (`src/cbadc/analog_frontend.py:207-217`).  With
`M = 0` the shape of `A` is negative and numpy raises; the divisions by `Rin * C` (line 172) and by `fc` (line 190) are those
of python numbers, which raise for zero, while the array divisions by `L` only warn: `L = 0` is not modelled (entries zero). -/
def lcFrontend (ids : String → ℕ → String) (solve : ℕ → K → (K → (ℕ → K) → ℕ → K) → ℕ → K)
    (glob : Sys K → (ℕ → ℕ → K) × (ℕ → ℕ → K) × (ℕ → ℕ → K)) (M : ℕ) (L C gm fc Rin : K) : Res (LCFrontend K) :=
  if M = 0 then .error .valueError
  else if Rin * C = 0 then .error .zeroDivision
  else if fc = 0 then .error .zeroDivision
  else
    let N := 2 * M - 1
    let A := Arr.mat N N (lcA M L C Rin)
    let B := Arr.mat N 1 (lcB C Rin)
    let G0 := lcGamma fun m => 1 / C * (gm * (1 / 2) ^ m)
    match Sys.new A B (.mat N N eye) (some (.mat N M G0)) (some (.mat N N fun r c => -eye r c)) none none none with
    | .error e => .error e
    | .ok g0 =>
      let gain := exponentialDecay solve (1 / fc) g0
      let G := lcGamma gain
      match Sys.new A B (.mat N N eye) (some (.mat N M G)) (some (.mat M N fun r c => -G c r)) none none none with
      | .error e => .error e
      | .ok g1 =>
        match glob g1 with
        | (GT, Bt, At) =>
          match Sys.new A B (.mat N N eye) (some (.mat N M G)) (some (.mat M N GT)) none (some (.mat M 1 Bt))
              (some (.mat M M At)) with
          | .error e => .error e
          | .ok g2 =>
            match Sys.new (.mat M M g2.A) (.mat M 1 g2.B) (.mat M M eye) (some (.mat M M G)) (some (.mat M M GT)) none
                (some (.mat M 1 Bt)) (some (.mat M M At)) with
            | .error e => .error e
            | .ok g3 =>
              match Sub.run (Obj.name ids) (lcOps M L C Rin gain) .empty with
              | .error e => .error e
              | .ok s => .ok ⟨g2, g3, s⟩

end

end Cbadc.Circuit
