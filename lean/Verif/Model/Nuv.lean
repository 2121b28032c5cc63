import Mathlib.Analysis.Normed.Algebra.MatrixExponential
import Mathlib.MeasureTheory.Integral.IntervalIntegral.Basic
import Verif.Model.AnalogSystem
import Verif.Model.DigitalControl
import Verif.Model.Estimator
import Verif.Spec.FilterCoefficients

/-!
# The NUV estimator (`src/cbadc/digital_estimator/nuv_estimator.py`)

Exact real arithmetic: `expm` is the matrix exponential, `solve_ivp` returns exact solutions, and
`np.linalg.inv` the inverse.  Arrays with a time index are functions of a natural number; only the rows that the
code allocates are meaningful.  The prior `covU` is a number, as its annotation says (line 87).
-/

namespace Cbadc.Nuv

open Matrix Cbadc.Analog Cbadc.Control Cbadc.Estimator Cbadc.Filter.Spec

variable {N P M L : ℕ}

/-- The matrices `Af`, `Bf` and `Vu`: `src/cbadc/digital_estimator/nuv_estimator.py:249,252,285`. -/
structure Pre (N M : ℕ) where
  Af : Matrix (Fin N) (Fin N) ℝ
  Bf : Matrix (Fin N) (Fin M) ℝ
  Vu : Matrix (Fin N) (Fin N) ℝ

/-- The attribute `Ts`, `src/cbadc/digital_estimator/nuv_estimator.py:114-117`; a sampling time of zero counts as
missing. -/
noncomputable def sampleTime (T : ℝ) (Ts : Option ℝ) (oversample : ℕ) : ℝ :=
  match Ts with
  | none => T / oversample
  | some t => if t ≠ 0 then t / oversample else T / oversample

/-- `_compute_filter_coefficients`, `src/cbadc/digital_estimator/nuv_estimator.py:242-298`, at sampling time `Ts`.
`BBT` (line 275) contains `covU`, and so does the factor of line 286. -/
structure Computed (g : Sys ℝ) (G : ℕ → ℕ → ℝ) (dc : DC ℝ M) (covU Ts : ℝ) (c : Pre g.N M) : Prop where
  Af : c.Af = NormedSpace.exp (Ts • toM g.N g.N g.A)
  Bf : ∀ m : Fin M, ∃ ψ, Flow (toM g.N g.N g.A) (fun t => toM g.N M G *ᵥ impulseResponse dc m t) 0 Ts ψ ∧
    ψ 0 = 0 ∧ ∀ n, c.Bf n m = ψ Ts n
  Vu : ∀ i j, c.Vu i j = covU * ∫ t in (0 : ℝ)..Ts,
    (NormedSpace.exp ((Ts - t) • toM g.N g.N g.A) * ((toM g.N g.L g.B * (covU • (toM g.N g.L g.B)ᵀ)) *
      NormedSpace.exp (((Ts - t) • toM g.N g.N g.A)ᵀ))) i j

/-- A constructed `NUVEstimator`: `src/cbadc/digital_estimator/nuv_estimator.py:96-130`. -/
structure Est (N P M L : ℕ) where
  pre : Pre N M
  B : Matrix (Fin N) (Fin L) ℝ
  CT : Matrix (Fin P) (Fin N) ℝ
  covU : ℝ
  bound : ℝ
  gamma : ℝ
  K1 : ℕ
  K2 : ℕ
  iters : ℕ
  os : ℕ

/-- The attribute `K3`, `src/cbadc/digital_estimator/nuv_estimator.py:103`. -/
def Est.K3 (f : Est N P M L) : ℕ := f.K1 + f.K2

/-- `NUVEstimator.__init__`: `src/cbadc/digital_estimator/nuv_estimator.py:83-130`; the checks of lines 97 and 100, and
the division of lines 115 and 117.  `pre` is the result of `_compute_filter_coefficients`. -/
def Est.new (g : Sys ℝ) (pre : Pre g.N M) (covU bound gamma : ℝ) (K1 K2 : ℤ) (iters os : ℕ) :
    Res (Est g.N g.Nt M g.L) :=
  if K1 < 1 then .error .exception
  else if K2 < 0 then .error .exception
  else if os = 0 then .error .zeroDivision
  else .ok ⟨pre, toM g.N g.L g.B, toM g.Nt g.N g.CT, covU, bound, gamma, K1.toNat, K2.toNat, iters, os⟩

/-- Mutable state of a `NUVEstimator`: `src/cbadc/digital_estimator/nuv_estimator.py:119-120,132-170`, and the number of
`next()` calls made on the control-signal iterator.  The buffers `_G`, `_F` and `_posterior_observation_mean` only hold
intermediate results and are left out. -/
structure State (N P M L : ℕ) where
  cs : ℕ → Fin M → ℝ
  count : ℕ
  estimate : ℕ → Fin L → ℝ
  mean : ℕ → Fin N → ℝ
  cov : ℕ → Matrix (Fin N) (Fin N) ℝ
  ym : ℕ → Fin P → ℝ
  yV : ℕ → Matrix (Fin P) (Fin P) ℝ
  xi : ℕ → Fin N → ℝ
  s1 : ℕ → Fin P → ℝ
  s2 : ℕ → Fin P → ℝ
  pointer : ℕ
  stop : Bool
  calls : ℕ

/-- The state after construction: `src/cbadc/digital_estimator/nuv_estimator.py:119-120,129,132-170`. -/
noncomputable def Est.init (f : Est N P M L) : State N P M L where
  cs := fun _ => 0
  count := 0
  estimate := fun _ => 0
  mean := fun _ => 0
  cov := Function.update (fun _ => 0) 0 ((10 : ℝ) ^ 12 • 1)
  ym := fun _ => 0
  yV := fun _ => 0
  xi := fun _ => 0
  s1 := fun _ _ => 1
  s2 := fun _ _ => 1
  pointer := f.K1
  stop := false
  calls := 0

/-- `_input`: `src/cbadc/digital_estimator/nuv_estimator.py:229-240`; the Boolean is the return value. -/
noncomputable def Est.input (f : Est N P M L) (s : Fin M → ℝ) (st : State N P M L) : Res Bool × State N P M L :=
  if st.count = f.K3 then (.error .exception, st)
  else
    (.ok (decide (f.K3 - 1 < st.count + 1)),
      { st with cs := Function.update st.cs st.count (valued s), count := st.count + 1 })

/-- The loop `for _ in range(oversample)`, `src/cbadc/digital_estimator/nuv_estimator.py:216-217`, for a positive number
of rounds. -/
noncomputable def Est.inputs (f : Est N P M L) (s : Fin M → ℝ) : ℕ → State N P M L → Res Bool × State N P M L
  | 0, st => (.ok false, st)
  | j + 1, st =>
    match f.input s st with
    | (.error e, st') => (.error e, st')
    | (.ok full, st') => if j = 0 then (.ok full, st') else Est.inputs f s j st'

/-- The loop `while not full`, `src/cbadc/digital_estimator/nuv_estimator.py:205-217`.  `RuntimeError` of the
control-signal iterator sets the stop flag and substitutes a zero vector; any other exception propagates.  `fuel` bounds
the number of iterations; `Est.nextFuel` supplies `K3 + 1`, which is never exhausted. -/
noncomputable def Est.fill (f : Est N P M L) (src : ℕ → Res (Fin M → ℝ)) :
    ℕ → State N P M L → Res Unit × State N P M L
  | 0, st => (.error .exception, st)
  | fuel + 1, st =>
    let go (s : Fin M → ℝ) (st' : State N P M L) : Res Unit × State N P M L :=
      match f.inputs s f.os st' with
      | (.error e, st'') => (.error e, st'')
      | (.ok full, st'') => if full then (.ok (), st'') else Est.fill f src fuel st''
    match src st.calls with
    | .ok s => go s { st with calls := st.calls + 1 }
    | .error .runtimeError => go 0 { st with calls := st.calls + 1, stop := true }
    | .error e => (.error e, { st with calls := st.calls + 1 })

/-- `_reset_between_batch`, `src/cbadc/digital_estimator/nuv_estimator.py:485-491`. -/
def reset (st : State N P M L) : State N P M L :=
  { st with
    s1 := fun k => if k = 0 then st.s1 0 else fun _ => 1
    s2 := fun k => if k = 0 then st.s2 0 else fun _ => 1 }

/-- `W_back`, `src/cbadc/digital_estimator/nuv_estimator.py:473-476`. -/
noncomputable def wBack (a b : Fin P → ℝ) : Matrix (Fin P) (Fin P) ℝ :=
  diagonal (fun i => 1 / a i) + diagonal (fun i => 1 / b i)

/-- `Wm_back`, `src/cbadc/digital_estimator/nuv_estimator.py:477-479`. -/
noncomputable def wmBack (bound : ℝ) (a b : Fin P → ℝ) : Fin P → ℝ := fun i =>
  bound * ∑ j, diagonal (fun i => 1 / a i) i j - bound * ∑ j, diagonal (fun i => 1 / b i) i j

/-- `_update_observation_statistics`, `src/cbadc/digital_estimator/nuv_estimator.py:471-483`. -/
noncomputable def Est.stats (f : Est N P M L) (st : State N P M L) : State N P M L :=
  { st with
    yV := fun k => (wBack (st.s1 k) (st.s2 k))⁻¹
    ym := fun k => (wBack (st.s1 k) (st.s2 k))⁻¹ *ᵥ wmBack f.bound (st.s1 k) (st.s2 k) }

/-- `_G[k]`, `src/cbadc/digital_estimator/nuv_estimator.py:344-353`. -/
noncomputable def gain (C : Matrix (Fin P) (Fin N) ℝ) (V : Matrix (Fin N) (Fin N) ℝ) (Y : Matrix (Fin P) (Fin P) ℝ) :
    Matrix (Fin P) (Fin P) ℝ := (Y + C * (V * Cᵀ))⁻¹

/-- `_F[k]`, `src/cbadc/digital_estimator/nuv_estimator.py:354-360`. -/
noncomputable def factor (C : Matrix (Fin P) (Fin N) ℝ) (V : Matrix (Fin N) (Fin N) ℝ) (Y : Matrix (Fin P) (Fin P) ℝ) :
    Matrix (Fin N) (Fin N) ℝ := 1 - V * (Cᵀ * (gain C V Y * C))

/-- The forward pass of `_MBF`, `src/cbadc/digital_estimator/nuv_estimator.py:341-384`: `_forward_mean[k]` and
`_forward_CoVariance[k]`. -/
noncomputable def Est.forward (f : Est N P M L) (st : State N P M L) : ℕ → (Fin N → ℝ) × Matrix (Fin N) (Fin N) ℝ
  | 0 => (st.mean 0, st.cov 0)
  | k + 1 =>
    let m := (Est.forward f st k).1
    let V := (Est.forward f st k).2
    let F := factor f.CT V (st.yV k)
    (f.pre.Af *ᵥ (F *ᵥ m + V *ᵥ (f.CTᵀ *ᵥ (gain f.CT V (st.yV k) *ᵥ st.ym k))) + f.pre.Bf *ᵥ st.cs k,
      f.pre.Af * (F * V * f.pre.Afᵀ) + f.pre.Vu)

/-- `np.dot(CT.transpose(), mean)` as an array with `P` entries,
`src/cbadc/digital_estimator/nuv_estimator.py:418-421`; the shapes only fit if `CT` is square. -/
def mulT (h : P = N) (C : Matrix (Fin P) (Fin N) ℝ) (m : Fin N → ℝ) : Fin P → ℝ := fun i =>
  ∑ j, C (Fin.cast h.symm j) (Fin.cast h i) * m j

/-- The backward pass of `_MBF`, `src/cbadc/digital_estimator/nuv_estimator.py:386-427`: `_xi_tilde[K3 - 1 - j]`. -/
noncomputable def Est.backward (f : Est N P M L) (h : P = N) (st : State N P M L) : ℕ → Fin N → ℝ
  | 0 =>
    let k := f.K3 - 1
    (factor f.CT (f.forward st k).2 (st.yV k))ᵀ *ᵥ 0 + f.CTᵀ *ᵥ (gain f.CT (f.forward st k).2 (st.yV k) *ᵥ
      (mulT h f.CT (f.forward st k).1 - st.ym k))
  | j + 1 =>
    let k := f.K3 - 1 - (j + 1)
    (factor f.CT (f.forward st k).2 (st.yV k))ᵀ *ᵥ (f.pre.Afᵀ *ᵥ Est.backward f h st j) +
      f.CTᵀ *ᵥ (gain f.CT (f.forward st k).2 (st.yV k) *ᵥ (mulT h f.CT (f.forward st k).1 - st.ym k))

/-- `_MBF`, `src/cbadc/digital_estimator/nuv_estimator.py:340-429`. -/
noncomputable def Est.mbf (f : Est N P M L) (st : State N P M L) : Res (State N P M L) :=
  if h : P = N then
    .ok { st with
      mean := fun k => (f.forward st k).1
      cov := fun k => (f.forward st k).2
      xi := fun k => f.backward h st (f.K3 - 1 - k) }
  else .error .valueError

/-- `_update_observation_bound_variances`, `src/cbadc/digital_estimator/nuv_estimator.py:438-469`. -/
noncomputable def Est.bounds (f : Est N P M L) (st : State N P M L) : State N P M L :=
  let post := fun k => f.CT *ᵥ (st.mean k - st.cov k *ᵥ st.xi k)
  { st with
    s1 := fun k l => max (|post k l - f.bound| / f.gamma) ((10 : ℝ) ^ (-100 : ℤ))
    s2 := fun k l => max (|post k l + f.bound| / f.gamma) ((10 : ℝ) ^ (-100 : ℤ)) }

/-- Lines 306-311 of `_compute_batch`, `src/cbadc/digital_estimator/nuv_estimator.py:306-311`, with `n` rounds of the
loop. -/
noncomputable def Est.solve (f : Est N P M L) : ℕ → State N P M L → Res (State N P M L)
  | 0, st => f.mbf (f.stats st)
  | n + 1, st =>
    match Est.solve f n st with
    | .error e => .error e
    | .ok st' => f.mbf (f.stats (f.bounds st'))

/-- `_input_estimation`, `src/cbadc/digital_estimator/nuv_estimator.py:431-436`. -/
noncomputable def Est.estimates (f : Est N P M L) (st : State N P M L) : State N P M L :=
  { st with estimate := fun k => if k < f.K1 then -(f.covU • (f.Bᵀ *ᵥ st.xi k)) else st.estimate k }

/-- `_compute_batch`: `src/cbadc/digital_estimator/nuv_estimator.py:300-338`. -/
noncomputable def Est.computeBatch (f : Est N P M L) (st : State N P M L) : Res (State N P M L) :=
  if st.count < f.K3 then .error .exception
  else
    match f.solve f.iters st with
    | .error e => .error e
    | .ok st1 =>
      let st2 := f.estimates st1
      .ok { st2 with
        mean := Function.update st2.mean 0 (st2.mean (f.K1 - 1))
        cov := Function.update st2.cov 0 (st2.cov (f.K1 - 1))
        s1 := Function.update st2.s1 0 (st2.s1 (f.K1 - 1))
        s2 := Function.update st2.s2 0 (st2.s2 (f.K1 - 1))
        cs := roll f.K3 f.K1 st2.cs
        count := st2.count - f.K1 }

/-- `__next__` with its self-recursion (line 227) unrolled: `src/cbadc/digital_estimator/nuv_estimator.py:188-227`, after
`set_iterator` (lines 172-180).  `fuel` bounds the recursion depth; `Est.next` supplies 2, which is never exhausted.  When
`_compute_batch` raises, the intermediate results stored so far are dropped; no later call reads them. -/
noncomputable def Est.nextFuel (f : Est N P M L) (src : ℕ → Res (Fin M → ℝ)) :
    ℕ → State N P M L → Res (Fin L → ℝ) × State N P M L
  | 0, st => (.error .runtimeError, st)
  | fuel + 1, st =>
    if st.pointer < f.K1 then
      (.ok (st.estimate st.pointer), { st with pointer := st.pointer + 1 })
    else if st.stop then (.error .stopIteration, st)
    else
      match f.fill src (f.K3 + 1) st with
      | (.error e, st2) => (.error e, st2)
      | (.ok (), st2) =>
        match f.computeBatch (reset st2) with
        | .error e => (.error e, st2)
        | .ok st3 => Est.nextFuel f src fuel { st3 with pointer := st3.pointer - f.K1 }

/-- `__next__`: `src/cbadc/digital_estimator/nuv_estimator.py:188-227`. -/
noncomputable def Est.next (f : Est N P M L) (src : ℕ → Res (Fin M → ℝ)) (st : State N P M L) :
    Res (Fin L → ℝ) × State N P M L :=
  f.nextFuel src 2 st

end Cbadc.Nuv
