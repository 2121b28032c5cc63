import Verif.Model.Synthesis
import Verif.Model.Topology

/-!
# Quadrature, oscillator and parallel leap-frog synthesis (`src/cbadc/synthesis/quadrature.py`)

Real numbers.
-/

namespace Cbadc.Synthesis
open Analog Control Signal Finset

/-- The keyword arguments of `get_bandpass`, `src/cbadc/synthesis/quadrature.py:36-50,52-55,81`; `modulate` and
`scalarInput` say whether the argument is present (its value is not looked at). -/
structure BpKw where
  frontend : Option Frontend := none
  fc : Option ℝ := none
  phi : Option ℝ := none
  deltaDC : Option ℝ := none
  modulate : Bool := false
  scalarInput : Bool := false

/-- `analog_system.Gamma[0, 0]`, `src/cbadc/synthesis/quadrature.py:43`; `None[0, 0]` raises `TypeError`, an empty array
`IndexError`. -/
def gamma00 (g : Sys ℝ) : Res ℝ :=
  match g.Gamma with
  | none => .error .typeError
  | some G => if g.N = 0 ∨ g.M = 0 then .error .indexError else .ok (G 0 0)

/-- `v * np.eye(N)` as a block (`src/cbadc/synthesis/quadrature.py:49-50,63-71`). -/
def eyeBlock (v : ℝ) : ℕ → ℕ → ℝ := fun r c => if r = c then v else 0

/-- The array `[[p I, -q I], [q I, p I]]` filled block by block, `src/cbadc/synthesis/quadrature.py:56-57,63-71`. -/
def rotBlocks (N : ℕ) (p q : ℝ) : ℕ → ℕ → ℝ :=
  blockSet N (2 * N) 0 N (blockSet 0 N N (2 * N) (blockSet N (2 * N) N (2 * N)
    (blockSet 0 N 0 N (fun _ _ => 0) (eyeBlock p)) (eyeBlock p)) (eyeBlock (-q))) (eyeBlock q)

/-- The replaced `Gamma` and `Gamma_tildeT`, `src/cbadc/synthesis/quadrature.py:52-74`.  A zero divisor (`beta T` or the
sine) gives infinities or NaN in numpy; here it is an error. -/
noncomputable def bpControl (N : ℕ) (beta T omega phi delta : ℝ) : Res ((ℕ → ℕ → ℝ) × (ℕ → ℕ → ℝ)) :=
  if 2 * Real.sin (omega * T / 2) = 0 ∨ beta * T = 0 then .error .arithmeticError
  else
    let k := beta * T * omega / (2 * Real.sin (omega * T / 2)) * Real.cos phi
    let kb := beta * T * omega / (2 * Real.sin (omega * T / 2)) * Real.sin phi
    let kt := -1 / (beta * T) * Real.cos (omega * (T / 2 + delta) - phi)
    let kbt := -1 / (beta * T) * Real.sin (omega * (T / 2 + delta) - phi)
    .ok (rotBlocks N k kb, rotBlocks N kt kbt)

/-- `get_bandpass`, `src/cbadc/synthesis/quadrature.py:36-102`.  `D` of the stack is not passed on. -/
noncomputable def bandpass (k : BpKw) : Res Frontend :=
  match k.frontend, k.fc with
  | some fe, some fc =>
    match gamma00 fe.sys with
    | .error e => .error e
    | .ok beta =>
      let N := fe.sys.N
      let omega := 2 * Real.pi * fc
      match stack [fe.sys, fe.sys] with
      | .error e => .error e
      | .ok g =>
        let A := blockSet N (2 * N) 0 N (blockSet 0 N N (2 * N) g.A (eyeBlock (-omega))) (eyeBlock omega)
        let ctrl : Res (Arr ℝ × Arr ℝ) :=
          if k.modulate then .ok (.mat g.N g.M (optBlock g.Gamma), .mat g.Mt g.N (optBlock g.GammaT))
          else
            match bpControl N beta fe.dc.T omega (k.phi.getD 0) (k.deltaDC.getD 0) with
            | .error e => .error e
            | .ok (G, GT) => .ok (.mat (2 * N) (2 * N) G, .mat (2 * N) (2 * N) GT)
        match ctrl with
        | .error e => .error e
        | .ok (G, GT) =>
          match DC.new fe.dc.T fe.dc.tt2 (2 * fe.M) none 0 none with
          | .error e => .error e
          | .ok dc =>
            if k.scalarInput ∧ g.L < 2 then .error .indexError
            else
              let B : Arr ℝ :=
                if k.scalarInput then
                  .mat g.N 1 fun r _ => if g.N / 2 ≤ r then -g.B r 1 else g.B r 0
                else .mat g.N g.L g.B
              let Bt : Arr ℝ :=
                if k.scalarInput then .mat g.Mt 1 fun r _ => g.Bt r 0 - g.Bt r 1 else .mat g.Mt g.L g.Bt
              match Sys.new (.mat g.N g.N A) B (.mat g.Nt g.N g.CT) (some G) (some GT) none (some Bt)
                  (some (.mat g.Mt g.M g.At)) with
              | .error e => .error e
              | .ok sys => .ok ⟨2 * fe.M, sys, dc⟩
  | _, _ => .error .notImplemented

/-- The state matrix of `_analog_system_factory`, `src/cbadc/synthesis/quadrature.py:18,23-29`: entry `(r, c)` is entry
`(r % 2, c % 2)` of the block `(r / 2, c / 2)`. -/
def oscA (beta rho gamma omega : ℝ) (r c : ℕ) : ℝ :=
  if r / 2 = c / 2 then
    (if r % 2 = c % 2 then rho else if r % 2 = 0 then -omega else omega)
  else if c / 2 = r / 2 + 1 then (if r % 2 = c % 2 then gamma else 0)
  else if r / 2 = c / 2 + 1 then (if r % 2 = c % 2 then beta else 0)
  else 0

/-- `np.sign` (`src/cbadc/synthesis/quadrature.py:22`). -/
noncomputable def npSign (v : ℝ) : ℝ := if v < 0 then -1 else if v = 0 then 0 else 1

/-- `_analog_system_factory`, `src/cbadc/synthesis/quadrature.py:17-33`. -/
noncomputable def oscSystem (N : ℕ) (beta rho kappa gamma omega : ℝ) : Res (Sys ℝ) :=
  Sys.new (.mat (2 * N) (2 * N) (oscA beta rho gamma omega))
    (.mat (2 * N) 2 fun r c => if r < 2 ∧ r = c then beta else 0) (eye (2 * N) 1) (some (eye (2 * N) kappa))
    (some (eye (2 * N) (-npSign kappa))) none none none

/-- The branch `OSR, N, BW, fp` of `get_chain_of_oscillators`, `src/cbadc/synthesis/quadrature.py:177-192`.  (`fp` is given
whenever a branch is taken.) -/
noncomputable def oscOsr (N : ℕ) (BW OSR rho fp : ℝ) : Res Frontend :=
  match pyDiv 1 (2 * BW * OSR) with
  | .error e => .error e
  | .ok T =>
    match pyDiv 1 (2 * T) with
    | .error e => .error e
    | .ok beta =>
      match pyDiv (-(2 * Real.pi * BW / 2) ^ 2) beta with
      | .error e => .error e
      | .ok alpha =>
        match oscSystem N beta rho beta alpha (2 * Real.pi * fp) with
        | .error e => .error e
        | .ok g =>
          match clocked T N none with
          | .error e => .error e
          | .ok dc => .ok ⟨N, g, dc⟩

/-- The branch `ENOB, N, BW, fp`, `src/cbadc/synthesis/quadrature.py:142-174`: whatever the numbers, it either raises
earlier (`N = 0`: `ZeroDivisionError`, line 148; `digital_control="switch_cap"`: line 163) or passes a single
`StepResponse` as the list of waveforms, whose missing length raises `TypeError`
(`src/cbadc/digital_control/digital_control.py:98`).  Intermediate zero divisors and clock errors (lines 148-168) are merged
into that `TypeError`. -/
def oscEnob (k : Kw) (N : ℕ) : Res Frontend :=
  if N = 0 then .error .zeroDivision
  else if k.switchCap then .error .notImplemented
  else .error .typeError

/-- `get_chain_of_oscillators`, `src/cbadc/synthesis/quadrature.py:105-201`. -/
noncomputable def oscillators (k : Kw) (fp : Option ℝ) : Res Frontend :=
  match k.N, fp with
  | some N, some fp =>
    match k.BW, k.ENOB, k.SNR, k.OSR, k.T with
    | some _, some _, _, _, _ => oscEnob k N
    | some _, none, some _, _, _ => oscEnob k N
    | some BW, none, none, some osr, _ => oscOsr N BW osr (k.rho.getD 0) fp
    | none, _, _, some osr, some T =>
      match pyDiv 1 (2 * T * osr) with
      | .error e => .error e
      | .ok BW => oscOsr N BW osr (k.rho.getD 0) fp
    | _, _, _, _, _ => .error .notImplemented
  | _, _ => .error .notImplemented

/-- `poles[i]`, `src/cbadc/synthesis/quadrature.py:271-311`. -/
def pole (p : List ℝ) (i : ℕ) : Res ℝ :=
  match p[i]? with
  | none => .error .indexError
  | some v => .ok v

/-- `poles[-i]` for `i > 0`, `src/cbadc/synthesis/quadrature.py:314`. -/
def poleBack (p : List ℝ) (i : ℕ) : Res ℝ := if p.length < i then .error .indexError else pole p (p.length - i)

/-- A pair of couplings `A[i, j] = p I`, `A[j, i] = -p I` between two parts, `src/cbadc/synthesis/quadrature.py:271-302`. -/
def couple (p : List ℝ) (i j n : ℕ) : Res (List (ℕ × ℕ × ℝ)) :=
  match pole p n with
  | .error e => .error e
  | .ok v => .ok [(i, j, v), (j, i, -v)]

/-- The body of the double loop for other widths, `src/cbadc/synthesis/quadrature.py:304-318`. -/
def coupleElse (p : List ℝ) (M i j : ℕ) : Res (List (ℕ × ℕ × ℝ)) :=
  match pole p (i + j * M) with
  | .error e => .error e
  | .ok v =>
    match poleBack p (i + j * M) with
    | .error e => .error e
    | .ok w => .ok [(i, j, v), (M - i - 1, M - 1 - j, -w)]

/-- The assignments to blocks of the state matrix in order, `src/cbadc/synthesis/quadrature.py:270-318`. -/
def couplings (M : ℕ) (p : List ℝ) : Res (List (ℕ × ℕ × ℝ)) :=
  if M = 3 then
    ([(1, 0, 0), (2, 0, 1), (2, 1, 2)].mapM fun c : ℕ × ℕ × ℕ => couple p c.1 c.2.1 c.2.2).map List.flatten
  else if M = 4 then
    ([(1, 0, 0), (2, 0, 1), (2, 1, 2), (3, 0, 3), (3, 1, 4), (3, 2, 5)].mapM fun c : ℕ × ℕ × ℕ =>
      couple p c.1 c.2.1 c.2.2).map List.flatten
  else
    (((List.range M).flatMap fun i => (List.range i).map fun j => (i, j)).mapM fun c : ℕ × ℕ =>
      coupleElse p M c.1 c.2).map List.flatten

/-- `get_parallel_leapfrog`, `src/cbadc/synthesis/quadrature.py:204-352`; `g` is `g_i` as in `leapSynthesis`, `M` the width.
For `M < 2` the sum in line 251 is the float `0.0`, which `np.ones` rejects even when `fps` is given. -/
noncomputable def parallelLeapFrog (k : Kw) (g : ℕ → ℝ) (width : Option ℕ) (fp : Option ℝ) (fps : Option (List ℝ)) :
    Res (Sys ℝ) :=
  match k.N, k.ENOB, k.BW, width, fp with
  | some N, some enob, some BW, some M, some fp =>
    if M < 2 then .error .typeError
    else
      let poles := fps.getD (List.replicate (M * (M - 1) / 2) (2 * Real.pi * fp))
      match leapSynthesis { N := some N, ENOB := some enob, BW := some BW } g with
      | .error e => .error e
      | .ok fe =>
        match stack (List.replicate M fe.sys) with
        | .error e => .error e
        | .ok s =>
          match couplings M poles with
          | .error e => .error e
          | .ok cs =>
            let A := cs.foldl (fun A c =>
              blockSet (c.1 * N) ((c.1 + 1) * N) (c.2.1 * N) ((c.2.1 + 1) * N) A (eyeBlock c.2.2)) s.A
            Sys.new (.mat s.N s.N A) (.mat s.N 1 fun r _ => ∑ c ∈ range s.L, s.B r c) (.mat s.Nt s.N s.CT)
              (some (.mat s.N s.M (optBlock s.Gamma))) (some (.mat s.Mt s.N (optBlock s.GammaT))) none none none
  | _, _, _, _, _ => .error .notImplemented

end Cbadc.Synthesis
