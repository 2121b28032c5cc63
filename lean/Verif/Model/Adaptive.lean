import Mathlib.Analysis.RCLike.Basic
import Mathlib.Data.Matrix.Mul
import Verif.Model.Basic

/-!
# Adaptive filters (`src/cbadc/digital_estimator/adaptive_filter.py`)

Exact arithmetic over `𝕜`, the real or the complex numbers (`dtype`).  Arrays carry their shape; only indices
inside the shape are meaningful.
-/

namespace Cbadc.Adaptive
open Finset

variable {𝕜 : Type*} [RCLike 𝕜]

/-- A two-dimensional array (references, outputs and errors, shape `(L, batch_size)`,
`src/cbadc/digital_estimator/adaptive_filter.py:104`). -/
structure A2 (𝕜 : Type*) where
  r : ℕ
  c : ℕ
  f : ℕ → ℕ → 𝕜

/-- A three-dimensional array (batched input, shape `(batch_size, M, K)`,
`src/cbadc/digital_estimator/adaptive_filter.py:102`). -/
structure A3 (𝕜 : Type*) where
  n : ℕ
  m : ℕ
  k : ℕ
  f : ℕ → ℕ → ℕ → 𝕜

/-- numpy's broadcasting rule for one dimension (used by the sums of
`src/cbadc/digital_estimator/adaptive_filter.py:112,131,396-399`). -/
def bdim (a b : ℕ) : Res ℕ :=
  if a = b then .ok a else if a = 1 then .ok b else if b = 1 then .ok a else .error .valueError

/-- An elementwise operation with broadcasting
(`src/cbadc/digital_estimator/adaptive_filter.py:112,131,396-399`). -/
def A2.bop (op : 𝕜 → 𝕜 → 𝕜) (X Y : A2 𝕜) : Res (A2 𝕜) :=
  match bdim X.r Y.r with
  | .error e => .error e
  | .ok r =>
    match bdim X.c Y.c with
    | .error e => .error e
    | .ok c => .ok ⟨r, c, fun i j =>
        op (X.f (if X.r = 1 then 0 else i) (if X.c = 1 then 0 else j))
          (Y.f (if Y.r = 1 then 0 else i) (if Y.c = 1 then 0 else j))⟩

/-- `.T` (`src/cbadc/digital_estimator/adaptive_filter.py:397-399`). -/
def A2.T (X : A2 𝕜) : A2 𝕜 := ⟨X.c, X.r, fun i j => X.f j i⟩

/-- `batch(signal, batch_size)` for a two-dimensional signal of shape `(n, m)` and axis 0,
`src/cbadc/digital_estimator/adaptive_filter.py:14-54`.  The assignment of lines 50-51 succeeds exactly when the
`(batch_size, m)` slice can be broadcast to `(m, batch_size)`, that is for `m = batch_size`; otherwise the
transpose is stored.  (The `print` of line 41 is not modelled.) -/
def batch (s : A2 𝕜) (K : ℕ) : Res (A3 𝕜) :=
  if s.r < K then .error .valueError
  else .ok ⟨s.r - K, s.c, K, fun i m k => if s.c = K then s.f (i + m) k else s.f (i + k) m⟩

/-- `_offset`: a column of shape `(L, 1)` (`src/cbadc/digital_estimator/adaptive_filter.py:93`) or, after
`lstsq`, a vector of shape `(L,)` (`src/cbadc/digital_estimator/adaptive_filter.py:375`). -/
inductive Off (𝕜 : Type*)
  | col (v : ℕ → 𝕜)
  | flat (v : ℕ → 𝕜)

/-- The attributes of an `AdaptiveFIRFilter`, `src/cbadc/digital_estimator/adaptive_filter.py:86-94,307-311`; `V`
is created by the first call of `rls`. -/
structure Filter (𝕜 : Type*) where
  K : ℕ
  L : ℕ
  M : ℕ
  hm : ℕ → ℕ → ℕ → 𝕜
  h : ℕ → ℕ → ℕ → 𝕜
  off : Off 𝕜
  offm : ℕ → 𝕜
  V : Option (ℕ → ℕ → 𝕜)

/-- `AdaptiveFIRFilter.__init__`, `src/cbadc/digital_estimator/adaptive_filter.py:86-94`. -/
def Filter.new (M K L : ℕ) : Filter 𝕜 :=
  ⟨K, L, M, fun _ _ _ => 0, fun _ _ _ => 0, .col fun _ => 0, fun _ => 0, none⟩

/-- `np.conj(self._offset)` as a two-dimensional operand
(`src/cbadc/digital_estimator/adaptive_filter.py:398`). -/
def Filter.offArr (f : Filter 𝕜) : A2 𝕜 :=
  match f.off with
  | .col v => ⟨f.L, 1, fun i _ => star (v i)⟩
  | .flat v => ⟨1, f.L, fun _ j => star (v j)⟩

/-- `AdaptiveFIRFilter.call`, `src/cbadc/digital_estimator/adaptive_filter.py:384-399`; `tensordot` raises when
the channels or taps do not match. -/
def Filter.call (f : Filter 𝕜) (x : A3 𝕜) : Res (A2 𝕜) :=
  if x.m ≠ f.M ∨ x.k ≠ f.K then .error .valueError
  else
    match A2.bop (· + ·)
        ⟨x.n, f.L, fun b l => ∑ m ∈ range f.M, ∑ k ∈ range f.K, star (f.h l m k) * x.f b m k⟩ f.offArr with
    | .error e => .error e
    | .ok y => .ok y.T

/-- `AdaptiveFIRFilter.predict`, `src/cbadc/digital_estimator/adaptive_filter.py:401-414`. -/
def Filter.predict (f : Filter 𝕜) (s : A2 𝕜) : Res (A2 𝕜) :=
  match batch s f.K with
  | .error e => .error e
  | .ok x => f.call x

/-- `AdaptiveFIRFilter.loss`, `src/cbadc/digital_estimator/adaptive_filter.py:96-112`: one number per row. -/
noncomputable def Filter.loss (f : Filter 𝕜) (x : A3 𝕜) (y : A2 𝕜) : Res (ℕ → ℝ) :=
  match f.call x with
  | .error e => .error e
  | .ok z =>
    match A2.bop (· - ·) y z with
    | .error e => .error e
    | .ok d => .ok fun l => (∑ b ∈ range d.c, ‖d.f l b‖ ^ 2) / x.n

/-- `np.conj(y - self.call(x))`, `src/cbadc/digital_estimator/adaptive_filter.py:131,325`. -/
def Filter.error (f : Filter 𝕜) (x : A3 𝕜) (y : A2 𝕜) : Res (A2 𝕜) :=
  match f.call x with
  | .error e => .error e
  | .ok z =>
    match A2.bop (· - ·) y z with
    | .error e => .error e
    | .ok d => .ok ⟨d.r, d.c, fun i j => star (d.f i j)⟩

/-- `AdaptiveFIRFilter.gradient`, `src/cbadc/digital_estimator/adaptive_filter.py:114-141`; the result carries
the number of rows of the error. -/
def Filter.gradient (f : Filter 𝕜) (x : A3 𝕜) (y : A2 𝕜) :
    Res (ℕ × (ℕ → ℕ → ℕ → 𝕜) × (ℕ → 𝕜)) :=
  match f.error x y with
  | .error e => .error e
  | .ok e =>
    if e.c ≠ x.n then .error .valueError
    else .ok (e.r, fun l m k => -∑ b ∈ range x.n, e.f l b / (e.c : 𝕜) * x.f b m k,
      fun l => -((∑ b ∈ range e.c, e.f l b) / (e.c : 𝕜)))

/-- One iteration of the inner loop of `lms`, `src/cbadc/digital_estimator/adaptive_filter.py:203-216`.  The
in-place sums raise when the gradient has more rows than the coefficients; `self._offset[:, 0]` raises for the
one-dimensional offset left by `lstsq`. -/
def Filter.lmsStep (f : Filter 𝕜) (lr mom : ℝ) (x : A3 𝕜) (y : A2 𝕜) : Res (Filter 𝕜) :=
  match f.gradient x y with
  | .error e => .error e
  | .ok (rows, g, go) =>
    if rows ≠ f.L then .error .valueError
    else
      let hm := fun l m k => f.hm l m k * (mom : 𝕜) + (lr : 𝕜) * g l m k
      let offm := fun l => f.offm l * (mom : 𝕜) + (lr : 𝕜) * go l
      match f.off with
      | .flat _ => .error .indexError
      | .col v => .ok
        { f with
          hm := hm
          h := fun l m k => f.h l m k - hm l m k
          offm := offm
          off := .col fun l => v l - offm l }

/-- The slices `x[b : b + batch_size]`, `src/cbadc/digital_estimator/adaptive_filter.py:200`. -/
def A3.slice (x : A3 𝕜) (b size : ℕ) : A3 𝕜 := ⟨min (b + size) x.n - b, x.m, x.k, fun i => x.f (b + i)⟩

/-- The slices `y[:, b : b + batch_size]`, `src/cbadc/digital_estimator/adaptive_filter.py:201`. -/
def A2.slice (y : A2 𝕜) (b size : ℕ) : A2 𝕜 := ⟨y.r, min (b + size) y.c - b, fun i j => y.f i (b + j)⟩

/-- The loop over the batches of one epoch, `src/cbadc/digital_estimator/adaptive_filter.py:199-216`, from offset
`b` on; `fuel` bounds the number of iterations (`Filter.lmsEpoch` supplies enough). -/
def Filter.lmsLoop (lr mom : ℝ) (size : ℕ) (x : A3 𝕜) (y : A2 𝕜) : ℕ → ℕ → Filter 𝕜 → Res (Filter 𝕜)
  | 0, _, f => .ok f
  | fuel + 1, b, f =>
    if x.n ≤ b then .ok f
    else
      match f.lmsStep lr mom (x.slice b size) (y.slice b size) with
      | .error e => .error e
      | .ok f' => Filter.lmsLoop lr mom size x y fuel (b + size) f'

/-- One epoch, `src/cbadc/digital_estimator/adaptive_filter.py:199-216`;
`range(0, n, 0)` raises. -/
def Filter.lmsEpoch (f : Filter 𝕜) (lr mom : ℝ) (size : ℕ) (x : A3 𝕜) (y : A2 𝕜) : Res (Filter 𝕜) :=
  if size = 0 then .error .valueError else Filter.lmsLoop lr mom size x y x.n 0 f

/-- `AdaptiveFIRFilter._batch`, `src/cbadc/digital_estimator/adaptive_filter.py:225-251`. -/
def Filter.prepare (f : Filter 𝕜) (s : A2 𝕜) (y : A2 𝕜) (delay : ℤ) : Res (A3 𝕜 × A2 𝕜) :=
  if delay < 0 then .error .valueError
  else
    match batch ⟨s.r - delay.toNat, s.c, fun i j => s.f (delay.toNat + i) j⟩ f.K with
    | .error e => .error e
    | .ok x =>
      let length := min x.n y.c
      .ok ({ x with n := length }, { y with c := length })

/-- The reordering of the samples in front of an epoch, `src/cbadc/digital_estimator/adaptive_filter.py:195-197`;
`p` is the drawn permutation (an oracle). -/
def A3.shuffle (x : A3 𝕜) (p : ℕ → ℕ) : A3 𝕜 := { x with f := fun b => x.f (p b) }

/-- The same for the references, `src/cbadc/digital_estimator/adaptive_filter.py:197`. -/
def A2.shuffle (y : A2 𝕜) (p : ℕ → ℕ) : A2 𝕜 := { y with f := fun l b => y.f l (p b) }

/-- The epochs of `lms`, `src/cbadc/digital_estimator/adaptive_filter.py:193-216`: `perm e` is the permutation
drawn before epoch `e` (the identity without `shuffle`). -/
def Filter.lmsEpochs (lr mom : ℝ) (size : ℕ) (perm : ℕ → ℕ → ℕ) : ℕ → ℕ → A3 𝕜 → A2 𝕜 → Filter 𝕜 → Res (Filter 𝕜)
  | 0, _, _, _, f => .ok f
  | n + 1, e, x, y, f =>
    match f.lmsEpoch lr mom size (x.shuffle (perm e)) (y.shuffle (perm e)) with
    | .error e => .error e
    | .ok f' => Filter.lmsEpochs lr mom size perm n (e + 1) (x.shuffle (perm e)) (y.shuffle (perm e)) f'

/-- `AdaptiveFIRFilter.lms` with `verbose=False`: the filter afterwards,
`src/cbadc/digital_estimator/adaptive_filter.py:143-223`.  (The returned loss is `Filter.loss` of the result.) -/
def Filter.lms (f : Filter 𝕜) (s y : A2 𝕜) (size epochs : ℕ) (lr mom : ℝ) (delay : ℤ) (perm : ℕ → ℕ → ℕ) :
    Res (Filter 𝕜) :=
  match f.prepare s y delay with
  | .error e => .error e
  | .ok (x, y) => Filter.lmsEpochs lr mom size perm epochs 0 x y f

/-! ### Recursive least squares -/

/-- `self._x_flatened` for the sample `x[b]`: the channels and taps row by row, then a 1
(`src/cbadc/digital_estimator/adaptive_filter.py:310-311,322`). -/
def flatten (M K : ℕ) (x : ℕ → ℕ → 𝕜) : ℕ → 𝕜 := fun i => if i < M * K then x (i / K) (i % K) else 1

/-- `np.dot(V, x)` for vectors of length `n` (`src/cbadc/digital_estimator/adaptive_filter.py:327`). -/
def mv (n : ℕ) (V : ℕ → ℕ → 𝕜) (x : ℕ → 𝕜) : ℕ → 𝕜 := fun i => ∑ j ∈ range n, V i j * x j

/-- `g`, `src/cbadc/digital_estimator/adaptive_filter.py:327-328`. -/
def gain (n : ℕ) (lam : ℝ) (V : ℕ → ℕ → 𝕜) (x : ℕ → 𝕜) : ℕ → 𝕜 := fun i =>
  mv n V x i / ((lam : 𝕜) + ∑ j ∈ range n, star (x j) * mv n V x j)

/-- One iteration of the inner loop of `rls`, `src/cbadc/digital_estimator/adaptive_filter.py:320-334`, on the
sample `x` with references `y`; `V` is the attribute `self.V`.  A row of the error with more than one entry
cannot be stored in an element of the offset (line 333), and a one-dimensional offset cannot be indexed twice. -/
def Filter.rlsStep (lam : ℝ) (f : Filter 𝕜) (V : ℕ → ℕ → 𝕜) (x : ℕ → ℕ → 𝕜) (y : ℕ → 𝕜) :
    Res (Filter 𝕜) :=
  match f.error ⟨1, f.M, f.K, fun _ => x⟩ ⟨f.L, 1, fun l _ => y l⟩ with
  | .error e => .error e
  | .ok e =>
    let n := f.M * f.K + 1
    let xf := flatten f.M f.K x
    let g := gain n lam V xf
    let V' := fun i j => (V i j - g i * star (mv n V xf j)) / (lam : 𝕜)
    if f.L = 0 then .ok { f with V := some V' }
    else
      match f.off with
      | .flat _ => .error .indexError
      | .col v =>
        if e.c ≠ 1 then .error .valueError
        else .ok
          { f with
            V := some V'
            off := .col fun l => v l + g (n - 1) * e.f l 0
            h := fun l m k => f.h l m k + g (m * f.K + k) * e.f l 0 }

/-- The lazily created covariance matrix, `src/cbadc/digital_estimator/adaptive_filter.py:307-311`. -/
noncomputable def Filter.covariance (f : Filter 𝕜) (delta : ℝ) : ℕ → ℕ → 𝕜 :=
  match f.V with
  | some V => V
  | none => fun i j => (if i = j then 1 else 0) / (delta : 𝕜)

/-- The inner loop of `rls` over a list of samples, `src/cbadc/digital_estimator/adaptive_filter.py:320-334`. -/
noncomputable def Filter.rlsLoop (lam delta : ℝ) : List ((ℕ → ℕ → 𝕜) × (ℕ → 𝕜)) → Filter 𝕜 → Res (Filter 𝕜)
  | [], f => .ok f
  | (x, y) :: l, f =>
    match f.rlsStep lam (f.covariance delta) x y with
    | .error e => .error e
    | .ok f' => Filter.rlsLoop lam delta l f'

/-- The samples of a batched signal in order (`src/cbadc/digital_estimator/adaptive_filter.py:320-323`). -/
def samples (x : A3 𝕜) (y : A2 𝕜) : List ((ℕ → ℕ → 𝕜) × (ℕ → 𝕜)) :=
  (List.range x.n).map fun b => (x.f b, fun l => y.f l b)

/-- The epochs of `rls`, `src/cbadc/digital_estimator/adaptive_filter.py:317-334`: `order e` is what the samples
are reordered by in front of epoch `e` when `shuffle` is set (an oracle), the identity otherwise.  The covariance
matrix is created before the first epoch; creating it at the first sample makes no difference here. -/
noncomputable def Filter.rlsEpochs (lam delta : ℝ)
    (order : ℕ → List ((ℕ → ℕ → 𝕜) × (ℕ → 𝕜)) → List ((ℕ → ℕ → 𝕜) × (ℕ → 𝕜))) :
    ℕ → ℕ → List ((ℕ → ℕ → 𝕜) × (ℕ → 𝕜)) → Filter 𝕜 → Res (Filter 𝕜)
  | 0, _, _, f => .ok f
  | n + 1, e, l, f =>
    match Filter.rlsLoop lam delta (order e l) f with
    | .error e => .error e
    | .ok f' => Filter.rlsEpochs lam delta order n (e + 1) (order e l) f'

/-- `AdaptiveFIRFilter.rls` with `verbose=False`: the filter afterwards,
`src/cbadc/digital_estimator/adaptive_filter.py:253-341`. -/
noncomputable def Filter.rls (f : Filter 𝕜) (s y : A2 𝕜) (epochs : ℕ) (delta lam : ℝ) (delay : ℤ)
    (order : ℕ → List ((ℕ → ℕ → 𝕜) × (ℕ → 𝕜)) → List ((ℕ → ℕ → 𝕜) × (ℕ → 𝕜))) : Res (Filter 𝕜) :=
  match f.prepare s y delay with
  | .error e => .error e
  | .ok (x, y) => Filter.rlsEpochs lam delta order epochs 0 (samples x y) { f with V := some (f.covariance delta) }

/-- The arguments of one call of `rls` (`src/cbadc/digital_estimator/adaptive_filter.py:253-263`). -/
structure RlsCall (𝕜 : Type*) where
  s : A2 𝕜
  y : A2 𝕜
  epochs : ℕ
  delta : ℝ
  lam : ℝ
  delay : ℤ
  order : ℕ → List ((ℕ → ℕ → 𝕜) × (ℕ → 𝕜)) → List ((ℕ → ℕ → 𝕜) × (ℕ → 𝕜))

/-- A sequence of calls of `rls` (`src/cbadc/digital_estimator/adaptive_filter.py:253-341`). -/
noncomputable def runRls : List (RlsCall 𝕜) → Filter 𝕜 → Res (Filter 𝕜)
  | [], f => .ok f
  | c :: cs, f =>
    match f.rls c.s c.y c.epochs c.delta c.lam c.delay c.order with
    | .error e => .error e
    | .ok f' => runRls cs f'

/-! ### Least squares -/

/-- `sol` is a least squares solution of `conj(x_with_offset) w = y.T` for the references `l`, as returned by
`np.linalg.lstsq` (`src/cbadc/digital_estimator/adaptive_filter.py:368-374`); exact solver assumed. -/
def LstSq (n p : ℕ) (X : ℕ → ℕ → 𝕜) (y : ℕ → 𝕜) (w : ℕ → 𝕜) : Prop :=
  ∀ w' : ℕ → 𝕜, ∑ b ∈ range n, ‖(∑ i ∈ range p, X b i * w i) - y b‖ ^ 2 ≤
    ∑ b ∈ range n, ‖(∑ i ∈ range p, X b i * w' i) - y b‖ ^ 2

/-- `AdaptiveFIRFilter.lstsq`, `src/cbadc/digital_estimator/adaptive_filter.py:343-382`, as a relation between the
filter before and after: the solver may return any least squares solution `sol l` for each reference `l`. -/
def Filter.Lstsq (f : Filter 𝕜) (s y : A2 𝕜) (delay : ℤ) (f' : Filter 𝕜) : Prop :=
  ∃ x y', f.prepare s y delay = .ok (x, y') ∧ y'.r = f.L ∧ x.m = f.M ∧
    ∃ sol : ℕ → ℕ → 𝕜,
      (∀ l < f.L, LstSq x.n (f.M * f.K + 1) (fun b i => star (flatten f.M f.K (x.f b) i)) (y'.f l) (sol l)) ∧
      f' = { f with
        off := .flat fun l => sol l (f.M * f.K)
        h := fun l m k => sol l (m * f.K + k) }

/-- `AdaptiveFIRFilter.get_offset`, `src/cbadc/digital_estimator/adaptive_filter.py:440-449`. -/
def Filter.getOffset (f : Filter 𝕜) : Res (ℕ → 𝕜) :=
  match f.off with
  | .col v => .ok v
  | .flat _ => .error .indexError

/-! ### IIR filter -/

/-- The filter part of `AdaptiveIIRFilter.predict`, `src/cbadc/digital_estimator/adaptive_filter.py:663-672`:
the rows `res[:, index, :]` for one reference, `fir` the FIR part and `den` the feedback coefficients; `index`
iterations have been made and `buf` is `res[l, index, :-1]`.  Returns `res[l, :, -1]`. -/
def iirLoop (K : ℕ) (den : ℕ → 𝕜) (fir : ℕ → 𝕜) : ℕ → ℕ → (ℕ → 𝕜) → List 𝕜
  | 0, _, _ => []
  | fuel + 1, index, buf =>
    let v := fir index + ∑ k ∈ range K, den k * buf k
    v :: iirLoop K den fir fuel (index + 1) fun k => if k + 1 < K then buf (k + 1) else v

/-- `AdaptiveIIRFilter.predict`, `src/cbadc/digital_estimator/adaptive_filter.py:638-674`, for one reference; the
coefficient array has one channel more than the input (line 630), whose coefficients are the feedback; `f.M` is the
size of that array.  For several references the contraction of lines 668-670 has shape `(L, L)` and cannot be
stored; this is the error branch (with at least one window). -/
def Filter.iirPredict (f : Filter 𝕜) (s : A2 𝕜) : Res (List 𝕜) :=
  match batch s f.K with
  | .error e => .error e
  | .ok x =>
    if x.m ≠ f.M - 1 then .error .valueError
    else if 2 ≤ f.L ∧ 0 < x.n then .error .valueError
    else
      let o := match f.off with
        | .col v => v 0
        | .flat v => v 0
      .ok (iirLoop f.K (f.h 0 (f.M - 1))
        (fun i => ∑ m ∈ range (f.M - 1), ∑ k ∈ range f.K, f.h 0 m k * x.f i m k + star o) x.n 0 fun _ => 0)

end Cbadc.Adaptive
