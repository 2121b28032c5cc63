import Mathlib.Algebra.Order.Field.Basic
import Mathlib.Algebra.Order.Group.Abs
import Mathlib.Data.Fin.Tuple.Basic
import Mathlib.Data.List.FinRange
import Verif.Model.Basic
import Verif.Model.FixedPoint

/-!
# Digital controls (`src/cbadc/digital_control`)

`DigitalControl`, `MultiLevelDigitalControl` and `DitherControl` over an ordered field `K` (exact
arithmetic).  Vectors of length `M` are functions on `Fin M`; the parameters fixed at construction are
kept apart from the mutable attributes.
-/

namespace Cbadc.Control

variable {K : Type*} [Field K] [LinearOrder K] {M R : ℕ}

/-- A DAC waveform with a starting time, `src/cbadc/analog_signal/impulse_responses.py:1-14`
(`_ImpulseResponse`: attribute `t0` and `__call__`/`evaluate`). -/
structure IR (K : Type*) where
  t0 : K
  f : K → K

/-- `StepResponse(t0)` with amplitude 1, `src/cbadc/analog_signal/impulse_responses.py:17-58`. -/
def stepResponse (t0 : K) : IR K := ⟨t0, fun t => if t0 ≤ t then 1 else 0⟩

/-- The immutable attributes of a `DigitalControl`,
`src/cbadc/digital_control/digital_control.py:66-85`; `tt2` is `clock._tt_2`, half the transition time
(`src/cbadc/analog_signal/clock.py:66`). -/
structure DC (K : Type*) (M : ℕ) where
  T : K
  tt2 : K
  tDelay : K
  ir : Fin M → IR K
  offsets : Fin M → K

/-- The mutable attributes `_s`, `_control_decisions`, `_old_control_decisions`,
`src/cbadc/digital_control/digital_control.py:73-77`. -/
structure State (K : Type*) (M : ℕ) where
  s : Fin M → K
  cur : Fin M → K
  old : Fin M → K

/-- `(t0s[:-1] > t0s[1:]).any()`, `src/cbadc/digital_control/digital_control.py:104`,
`src/cbadc/digital_control/dither_control.py:87`. -/
def anyDecrease : List K → Bool
  | a :: b :: r => decide (b < a) || anyDecrease (b :: r)
  | _ => false

/-- The phase checks of `_initialize_impulse_response` (true when the list is rejected),
`src/cbadc/digital_control/digital_control.py:101-105`, `src/cbadc/digital_control/dither_control.py:84-88`. -/
def badPhases (T : K) (t0s : List K) : Bool :=
  t0s.any (fun t => decide (t < 0)) || t0s.any (fun t => decide (T < t)) || anyDecrease t0s

/-- `_initialize_impulse_response`, `src/cbadc/digital_control/digital_control.py:96-111`
(without the unused flag `_mulit_phase`). -/
def initIR (T : K) (M : ℕ) : Option (List (IR K)) → Res (Fin M → IR K)
  | none => .ok fun _ => stepResponse 0
  | some l =>
    if h : l.length = M then
      if badPhases T (l.map IR.t0) then .error .exception
      else .ok fun m => l.get (m.cast h.symm)
    else .error .exception

/-- The offsets argument, `src/cbadc/digital_control/digital_control.py:80-85`. -/
def initOffsets (M : ℕ) : Option (List K) → Res (Fin M → K)
  | none => .ok fun _ => 0
  | some o =>
    if h : o.length = M then .ok fun m => o.get (m.cast h.symm) else .error .exception

/-- `DigitalControl.__init__`, `src/cbadc/digital_control/digital_control.py:56-85`, on a clock with period
`T` and half transition time `tt2` (the `isinstance` check of line 64 is a type here). -/
def DC.new (T tt2 : K) (M : ℕ) (ir : Option (List (IR K))) (tDelay : K) (offsets : Option (List K)) :
    Res (DC K M) :=
  if tDelay < 0 then .error .exception
  else
    match initIR T M ir with
    | .error e => .error e
    | .ok irs =>
      match initOffsets M offsets with
      | .error e => .error e
      | .ok off => .ok ⟨T, tt2, tDelay, irs, off⟩

/-- The initial mutable attributes, `src/cbadc/digital_control/digital_control.py:73-77`. -/
def State.init : State K M := ⟨fun _ => 0, fun _ => 0, fun _ => 0⟩

/-- `np.allclose(t, t0, atol=atol)` with numpy's default `rtol = 1e-5`,
`src/cbadc/digital_control/digital_control.py:139`,
`src/cbadc/digital_control/multi_level_digital_control.py:85-87`,
`src/cbadc/digital_control/dither_control.py:128`. -/
def allclose (t t0 atol : K) : Prop := |t - t0| ≤ atol + 1 / 100000 * |t0|

instance (t t0 atol : K) : Decidable (allclose t t0 atol) := inferInstanceAs (Decidable (_ ≤ _))

/-- `DigitalControl.control_update`, `src/cbadc/digital_control/digital_control.py:126-144`.  The loop body
for `m` touches index `m` only, so the loop is written pointwise. -/
def update (dc : DC K M) (st : State K M) (t : K) (y : Fin M → K) : State K M where
  s m := if allclose t (dc.ir m).t0 dc.tt2 then (if dc.offsets m ≤ y m then 1 else 0) else st.s m
  old m := if allclose t (dc.ir m).t0 dc.tt2 then st.cur m else st.old m
  cur m :=
    if allclose t (dc.ir m).t0 dc.tt2 then 2 * (if dc.offsets m ≤ y m then 1 else 0) - 1 else st.cur m

/-- `DigitalControl.reset()`, `src/cbadc/digital_control/digital_control.py:113-124`.
(`_old_control_decisions` is left alone; the change of dtype of `_s` is invisible for 0/1 values.) -/
def reset (st : State K M) : State K M := ⟨fun _ => 0, fun _ => 0, st.old⟩

/-- `reset(t0)`, `src/cbadc/digital_control/digital_control.py:121-124`: any other time raises. -/
def resetAt (st : State K M) (t0 : K) : Res (State K M) :=
  if t0 ≠ 0 then .error .deprecationWarning else .ok (reset st)

/-- `DigitalControl.control_signal`, `src/cbadc/digital_control/digital_control.py:146-167` (contents at the
time of the call; see `HState` for the aliasing). -/
def signal (st : State K M) : Fin M → K := st.s

/-- `DigitalControl.control_contribution`, `src/cbadc/digital_control/digital_control.py:169-197`. -/
def contribution (dc : DC K M) (st : State K M) (t : K) : Fin M → K := fun m =>
  (if t < (dc.ir m).t0 then (dc.ir m).f (t + dc.T) else (dc.ir m).f t) *
    (if t < dc.tDelay then st.old m else st.cur m)

/-- `DigitalControl.impulse_response`, `src/cbadc/digital_control/digital_control.py:199-219`. -/
def impulseResponse (dc : DC K M) (m : Fin M) (t : K) : Fin M → K := fun i =>
  if i = m ∧ 0 ≤ t ∧ t ≤ dc.T then (dc.ir m).f t else 0

/-- State-changing calls a user can make on a control: `control_update`
(`src/cbadc/digital_control/digital_control.py:126`) and `reset`
(`src/cbadc/digital_control/digital_control.py:113`). -/
inductive Op (K : Type*) (M : ℕ)
  | update (t : K) (y : Fin M → K)
  | reset

/-- One call, `src/cbadc/digital_control/digital_control.py:113-144`. -/
def step (dc : DC K M) (st : State K M) : Op K M → State K M
  | .update t y => update dc st t y
  | .reset => reset st

/-- A sequence of calls (histories of `src/cbadc/digital_control/digital_control.py:113-144`). -/
def run (dc : DC K M) (st : State K M) (ops : List (Op K M)) : State K M := ops.foldl (step dc) st

/-! ### Aliasing of the control signal array -/

/-- The array objects behind `_s`: `control_signal` returns a numpy view of the current array
(`src/cbadc/digital_control/digital_control.py:167`), `control_update` writes into it in place (line 141) and
`reset` replaces it by a new one (line 123).  `heap` maps array identities to contents, `addr` is the array
currently bound to `_s`, `rest` the remaining attributes. -/
structure HState (K : Type*) (M : ℕ) where
  heap : ℕ → Fin M → K
  addr : ℕ
  rest : State K M

/-- The object after construction, `src/cbadc/digital_control/digital_control.py:73`. -/
def HState.init : HState K M := ⟨fun _ _ => 0, 0, State.init⟩

/-- One call on the object with array identities,
`src/cbadc/digital_control/digital_control.py:123,141`. -/
def hstep (dc : DC K M) (h : HState K M) : Op K M → HState K M
  | .update t y =>
    let st := update dc h.rest t y
    ⟨Function.update h.heap h.addr st.s, h.addr, st⟩
  | .reset =>
    let st := reset h.rest
    ⟨Function.update h.heap (h.addr + 1) st.s, h.addr + 1, st⟩

/-- A sequence of calls on the object with array identities
(`src/cbadc/digital_control/digital_control.py:113-144`). -/
def hrun (dc : DC K M) (h : HState K M) (ops : List (Op K M)) : HState K M := ops.foldl (hstep dc) h

/-- `control_signal()` as the user holds it: a reference to the current array,
`src/cbadc/digital_control/digital_control.py:167`. -/
def handOut (h : HState K M) : ℕ := h.addr

/-- Contents read through a held reference (numpy view of
`src/cbadc/digital_control/digital_control.py:167`). -/
def deref (h : HState K M) (a : ℕ) : Fin M → K := h.heap a

/-! ### Multi-level control -/

/-- `np.linspace(a, b, n)[k]` for `k < n`; used in
`src/cbadc/digital_control/multi_level_digital_control.py:68,70`. -/
def linspace (a b : K) (n k : ℕ) : K := if n = 1 then a else a + k * ((b - a) / (n - 1 : ℕ))

/-- The attributes of a `MultiLevelDigitalControl`,
`src/cbadc/digital_control/multi_level_digital_control.py:52-72`: base class attributes and the number of
levels per control; `levels` and `references` follow from it. -/
structure ML (K : Type*) (M : ℕ) where
  dc : DC K M
  n : Fin M → ℕ

/-- `_levels[m][k]`, `src/cbadc/digital_control/multi_level_digital_control.py:66-69`. -/
def ML.level (n k : ℕ) : K := linspace (-1 + 1 / (n : K)) (1 - 1 / (n : K)) n k

/-- `_references[m][k]`, `src/cbadc/digital_control/multi_level_digital_control.py:70`. -/
def ML.reference (n k : ℕ) : K := linspace 0 1 (n + 1) k

/-- `MultiLevelDigitalControl.__init__`,
`src/cbadc/digital_control/multi_level_digital_control.py:44-72`.  `offsets = []` is the default; the
attribute set on lines 57/59 is overwritten by the base class constructor (line 71 passes no offsets,
`src/cbadc/digital_control/digital_control.py:85` sets zeros). -/
def ML.new (T tt2 : K) (M : ℕ) (levels : List ℕ) (ir : Option (List (IR K))) (offsets : List K) :
    Res (ML K M) :=
  if ¬(offsets = [] ∨ offsets.length = M) then .error .exception
  else if h : levels.length = M then
    if levels.any (· == 0) then .error .zeroDivision
    else
      match DC.new T tt2 M ir 0 none with
      | .error e => .error e
      | .ok dc => .ok ⟨dc, fun m => levels.get (m.cast h.symm)⟩
  else .error .exception

/-- The loop of `quantize`, `src/cbadc/digital_control/multi_level_digital_control.py:112-116`, from `level`
on with `fuel` iterations left; `none` is Python's `None` (loop ended without `return`). -/
def quantizeLoop (n : ℕ) (x : K) : ℕ → ℕ → Option K
  | 0, _ => none
  | fuel + 1, level =>
    if ¬(ML.level n level ≤ x) then some (ML.reference n level)
    else if level = n - 1 then some (ML.reference n n)
    else quantizeLoop n x fuel (level + 1)

/-- `MultiLevelDigitalControl.quantize`,
`src/cbadc/digital_control/multi_level_digital_control.py:96-116`. -/
def quantize (n : ℕ) (x : K) : Option K := quantizeLoop n x n 0

/-- Mutable attributes of a `MultiLevelDigitalControl`: those of the base class and whether `_s` currently
is an integer array (`src/cbadc/digital_control/multi_level_digital_control.py:72`: no;
`src/cbadc/digital_control/digital_control.py:123`: yes, after `reset`). -/
structure MLState (K : Type*) (M : ℕ) where
  st : State K M
  intS : Bool

/-- `src/cbadc/digital_control/multi_level_digital_control.py:71-72`. -/
def MLState.init : MLState K M := ⟨State.init, false⟩

/-- Storing a float in `_s`: an int8 array truncates toward zero (numpy assignment in
`src/cbadc/digital_control/multi_level_digital_control.py:89`). -/
def store [FloorRing K] (intS : Bool) (v : K) : K := if intS then (pyInt v : K) else v

/-- `MultiLevelDigitalControl.control_update`,
`src/cbadc/digital_control/multi_level_digital_control.py:74-94`.  (`quantize` never returns `None` for an
accepted control, `quantize_isSome`; the default 0 is never used.) -/
def mlUpdate [FloorRing K] (ml : ML K M) (st : MLState K M) (t : K) (y : Fin M → K) : MLState K M where
  intS := st.intS
  st :=
    { s := fun m =>
        if allclose t (ml.dc.ir m).t0 ml.dc.tt2 then store st.intS ((quantize (ml.n m) (y m)).getD 0)
        else st.st.s m
      cur := fun m =>
        if allclose t (ml.dc.ir m).t0 ml.dc.tt2 then
          2 * store st.intS ((quantize (ml.n m) (y m)).getD 0) - 1 + ml.dc.offsets m
        else st.st.cur m
      old := st.st.old }

/-- `reset`, inherited from `src/cbadc/digital_control/digital_control.py:113-124`. -/
def mlReset (st : MLState K M) : MLState K M := ⟨reset st.st, true⟩

/-- One call on a multi-level control
(`src/cbadc/digital_control/multi_level_digital_control.py:74`,
`src/cbadc/digital_control/digital_control.py:113`). -/
def mlStep [FloorRing K] (ml : ML K M) (st : MLState K M) : Op K M → MLState K M
  | .update t y => mlUpdate ml st t y
  | .reset => mlReset st

/-- A sequence of calls (histories of
`src/cbadc/digital_control/multi_level_digital_control.py:74-94`). -/
def mlRun [FloorRing K] (ml : ML K M) (st : MLState K M) (ops : List (Op K M)) : MLState K M :=
  ops.foldl (mlStep ml) st

/-! ### Dither control -/

/-- The immutable attributes of a `DitherControl`,
`src/cbadc/digital_control/dither_control.py:39-66`: `R` random controls before the `M` wrapped ones,
the drawn table `seq` with `size` rows. -/
structure Dither (K : Type*) (R M : ℕ) where
  inner : DC K M
  ir : Fin R → IR K
  seq : ℕ → Fin R → K
  size : ℕ
  tDelay : K

/-- `DitherControl.__init__` with `_initialize_impulse_response`,
`src/cbadc/digital_control/dither_control.py:30-107`.  The table is a parameter (drawn by numpy). -/
def Dither.new (R : ℕ) (dc : DC K M) (ir : Option (List (IR K))) (seq : ℕ → Fin R → K) (size : ℕ)
    (tDelay : K) : Res (Dither K R M) :=
  if tDelay < 0 then .error .exception
  else
    match initIR dc.T R ir with
    | .error e => .error e
    | .ok irs => .ok ⟨dc, irs, seq, size, tDelay⟩

/-- The mutable attributes of a `DitherControl`,
`src/cbadc/digital_control/dither_control.py:43-66`; `_s` and `_control_decisions` are split into their first
`R` and last `M` entries. -/
structure DState (K : Type*) (R M : ℕ) where
  inner : State K M
  sR : Fin R → K
  sM : Fin M → K
  curR : Fin R → K
  curM : Fin M → K
  idx : ℕ
  dithering : Bool

/-- `src/cbadc/digital_control/dither_control.py:48-64` with a newly built wrapped control. -/
def DState.init (dithering : Bool) : DState K R M :=
  ⟨State.init, fun _ => 0, fun _ => 0, fun _ => 0, fun _ => 0, 0, dithering⟩

/-- Body of the loop over the random controls, `src/cbadc/digital_control/dither_control.py:128-139`. -/
def ditherBody (d : Dither K R M) (t : K) (st : DState K R M) (m : Fin R) : DState K R M :=
  if allclose t (d.ir m).t0 d.inner.tt2 then
    if st.dithering then
      { st with
        sR := Function.update st.sR m (d.seq st.idx m)
        curR := Function.update st.curR m (2 * d.seq st.idx m - 1)
        idx := (st.idx + 1) % d.size }
    else
      { st with
        sR := Function.update st.sR m (1 / 2)
        curR := Function.update st.curR m (2 * (1 / 2) - 1) }
  else st

/-- `DitherControl.control_update`, `src/cbadc/digital_control/dither_control.py:109-139`. -/
def ditherUpdate (d : Dither K R M) (st : DState K R M) (t : K) (y : Fin M → K) : DState K R M :=
  let inner := update d.inner st.inner t y
  let st1 := { st with inner := inner, sM := inner.s, curM := fun m => 2 * inner.s m - 1 }
  (List.finRange R).foldl (ditherBody d t) st1

/-- `control_signal`, inherited (`src/cbadc/digital_control/digital_control.py:146-167`). -/
def ditherSignal (st : DState K R M) : Fin (R + M) → K := Fin.append st.sR st.sM

/-- `control_contribution`, inherited (`src/cbadc/digital_control/digital_control.py:169-197`): the attribute
`_old_control_decisions` is never set by `DitherControl.__init__`, so reading it raises. -/
def ditherContribution (d : Dither K R M) (st : DState K R M) (t : K) : Res (Fin (R + M) → K) :=
  if t < d.tDelay ∧ 0 < R + M then .error .attributeError
  else .ok fun m =>
    let ir := Fin.append d.ir d.inner.ir m
    (if t < ir.t0 then ir.f (t + d.inner.T) else ir.f t) * Fin.append st.curR st.curM m

/-- Calls on a dither control: `control_update`, `turn_on_dither`, `turn_off_dither`,
`src/cbadc/digital_control/dither_control.py:68-72,109`. -/
inductive DOp (K : Type*) (M : ℕ)
  | update (t : K) (y : Fin M → K)
  | on
  | off

/-- One call, `src/cbadc/digital_control/dither_control.py:68-72,109-139`. -/
def dStep (d : Dither K R M) (st : DState K R M) : DOp K M → DState K R M
  | .update t y => ditherUpdate d st t y
  | .on => { st with dithering := true }
  | .off => { st with dithering := false }

/-- A sequence of calls (histories of `src/cbadc/digital_control/dither_control.py:68-139`). -/
def dRun (d : Dither K R M) (st : DState K R M) (ops : List (DOp K M)) : DState K R M :=
  ops.foldl (dStep d) st

end Cbadc.Control
