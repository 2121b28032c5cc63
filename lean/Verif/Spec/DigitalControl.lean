import Verif.Model.DigitalControl

/-! # Specification vocabulary for the digital controls -/

namespace Cbadc.Control.Spec

variable {K : Type*} [Field K] [LinearOrder K] {M R : ℕ}

/-- The observations of control `m` at the updates that matched its phase `t0` (up to `tol`) since the last
reset, oldest first.  (Specification; describes calls to `src/cbadc/digital_control/digital_control.py:113-144`.) -/
def matched (t0 tol : K) (m : Fin M) (ops : List (Op K M)) : List K :=
  ops.foldl (fun acc op =>
    match op with
    | .update t y => if |t - t0| ≤ tol then acc ++ [y m] else acc
    | .reset => []) []

/-- The binary decision after a list of observations: the sign of the last one relative to the offset.
(Specification for `src/cbadc/digital_control/digital_control.py:141`.) -/
def bit (offset : K) (l : List K) : K :=
  match l.getLast? with
  | none => 0
  | some v => if offset ≤ v then 1 else 0

/-- The DAC decision after a list of observations: 0 before the first, then +1 or -1.
(Specification for `src/cbadc/digital_control/digital_control.py:144`.) -/
def decision (offset : K) (l : List K) : K :=
  match l.getLast? with
  | none => 0
  | some v => if offset ≤ v then 1 else -1

/-- The phase tolerance of control `m`: half the transition time of the clock plus numpy's relative
tolerance. (Specification for `src/cbadc/digital_control/digital_control.py:139`.) -/
def tol (dc : DC K M) (m : Fin M) : K := dc.tt2 + 1 / 100000 * |(dc.ir m).t0|

/-- No `reset` in a history. (Specification.) -/
def NoReset (ops : List (Op K M)) : Prop := ∀ op ∈ ops, ∃ t y, op = Op.update t y

/-- The dither draws made by a history: for each update, the random controls whose phase matches, in order,
with the dithering switch at that time.
(Specification for `src/cbadc/digital_control/dither_control.py:127-139`.) -/
def draws (t0 : Fin R → K) (tol : Fin R → K) : Bool → List (DOp K M) → List (Fin R × Bool)
  | _, [] => []
  | b, .update t _ :: r =>
    ((List.finRange R).filter fun m => |t - t0 m| ≤ tol m).map (fun m => (m, b)) ++ draws t0 tol b r
  | _, .on :: r => draws t0 tol true r
  | _, .off :: r => draws t0 tol false r

/-- Value of random control `m` after a list of draws: row number (draws made so far with dithering on,
modulo the table size) of the table at its last draw; 1/2 if dithering was off then; 0 if never drawn.
(Specification for `src/cbadc/digital_control/dither_control.py:127-139`.) -/
def drawn (seq : ℕ → Fin R → K) (size : ℕ) (l : List (Fin R × Bool)) (m : Fin R) : K :=
  match l.reverse.dropWhile (fun d => d.1 ≠ m) with
  | [] => 0
  | d :: before => if d.2 then seq (before.countP (·.2) % size) m else 1 / 2

end Cbadc.Control.Spec
