import Mathlib.Algebra.BigOperators.Fin
import Mathlib.Logic.Equiv.Fin.Basic
import Mathlib.Analysis.SpecialFunctions.Exp
import Mathlib.Analysis.SpecialFunctions.Trigonometric.Basic
import Verif.Model.WarmUp
import Verif.Props.Estimator

/-! # C132, C133: lag, warm-up and demodulation of the estimators -/

namespace Cbadc.Estimator
open Matrix Cbadc.Spec Cbadc.Streams

section
variable {S V : Type*}

theorem stateAfter_add (next : S → Res V × S) (s0 : S) (m n : ℕ) :
    stateAfter next (stateAfter next s0 m) n = stateAfter next s0 (m + n) := by
  induction n with
  | zero => rfl
  | succ n ih => rw [← Nat.add_assoc]; simp only [stateAfter]; rw [ih]

theorem call_add (next : S → Res V × S) (s0 : S) (m n : ℕ) :
    call next (stateAfter next s0 m) n = call next s0 (m + n) := by
  unfold call
  rw [stateAfter_add]

/-- A step followed by the calls from the state it leads to. -/
theorem stateAfter_shift (next : S → Res V × S) (s0 : S) (n : ℕ) :
    stateAfter next (next s0).2 n = stateAfter next s0 (n + 1) := by
  have := stateAfter_add next s0 1 n
  rw [Nat.add_comm 1 n] at this
  exact this

theorem discard_ok (next : S → Res V × S) (n : ℕ) : ∀ s, (∀ j < n, ∃ v, call next s j = .ok v) →
    discard next n s = (.ok (), stateAfter next s n) := by
  induction n with
  | zero => intro s _; rfl
  | succ n ih =>
    intro s h
    obtain ⟨v, hv⟩ := h 0 (by omega)
    have hv' : next s = (.ok v, (next s).2) := Prod.ext hv rfl
    rw [discard, hv']
    dsimp only
    rw [ih _ (fun j hj => ?_), stateAfter_shift]
    unfold call
    rw [stateAfter_shift]
    exact h (j + 1) (by omega)

theorem drain_ok (next : S → Res V × S) (n : ℕ) : ∀ w : Lagged S, w.lag.toNat = n →
    (∀ j < n, ∃ v, call next w.st j = .ok v) →
    drain next n w = (.ok (), ⟨w.lag - n, stateAfter next w.st n⟩) := by
  induction n with
  | zero => intro w _ _; simp [drain, stateAfter]
  | succ n ih =>
    intro w hw h
    obtain ⟨v, hv⟩ := h 0 (by omega)
    have hv' : next w.st = (.ok v, (next w.st).2) := Prod.ext hv rfl
    rw [drain, if_pos (by omega), hv']
    dsimp only
    rw [ih _ (by dsimp only; omega) (fun j hj => ?_), stateAfter_shift]
    · push_cast
      congr 2
      omega
    · dsimp only
      unfold call
      rw [stateAfter_shift]
      exact h (j + 1) (by omega)

theorem drain_error (next : S → Res V × S) (n : ℕ) : ∀ (w : Lagged S) (i : ℕ) e, w.lag.toNat = n → i < n →
    (∀ j < i, ∃ v, call next w.st j = .ok v) → call next w.st i = .error e →
    drain next n w = (.error e, ⟨w.lag - i, stateAfter next w.st (i + 1)⟩) := by
  induction n with
  | zero => intro w i e _ hi; omega
  | succ n ih =>
    intro w i e hw hi h he
    rw [drain, if_pos (by omega)]
    cases i with
    | zero =>
      have hv' : next w.st = (.error e, (next w.st).2) := Prod.ext he rfl
      rw [hv']
      simp [stateAfter]
    | succ i =>
      obtain ⟨v, hv⟩ := h 0 (by omega)
      have hv' : next w.st = (.ok v, (next w.st).2) := Prod.ext hv rfl
      rw [hv']
      dsimp only
      have h1 : ∀ j < i, ∃ v, call next (next w.st).2 j = .ok v := fun j hj => by
        unfold call
        rw [stateAfter_shift]
        exact h (j + 1) (by omega)
      have h2 : call next (next w.st).2 i = .error e := by
        unfold call at he ⊢
        rwa [stateAfter_shift]
      rw [ih ⟨w.lag - 1, (next w.st).2⟩ i e (by dsimp only; omega) (by omega) h1 h2, stateAfter_shift]
      push_cast
      congr 2
      omega

/-! ## The property: what warming up does -/

/-- C132, `warm_up()`: if the calls succeed, as many estimates are dropped as the lag says, and a positive lag is zero
afterwards; the exception of a failing call is passed on, and the lag has been reduced by the estimates dropped
before it. -/
theorem C132_warm_up (next : S → Res V × S) (w : Lagged S) (samples : ℤ) (hs : samples ≤ 0) :
    ((∀ j < w.lag.toNat, ∃ v, call next w.st j = .ok v) → ∃ w', warmUp next samples w = (.ok (), w') ∧
      w'.lag = min w.lag 0 ∧ ∀ n, call next w'.st n = call next w.st (n + w.lag.toNat)) ∧
    (∀ i < w.lag.toNat, ∀ e, (∀ j < i, ∃ v, call next w.st j = .ok v) → call next w.st i = .error e →
      ∃ w', warmUp next samples w = (.error e, w') ∧ w'.lag = w.lag - i ∧
        ∀ n, call next w'.st n = call next w.st (n + i + 1)) := by
  unfold warmUp
  rw [if_neg (by omega)]
  constructor
  · intro h
    refine ⟨_, drain_ok next _ w rfl h, ?_, ?_⟩
    · dsimp only
      omega
    · intro n
      dsimp only
      rw [call_add, Nat.add_comm]
  · intro i hi e h he
    refine ⟨_, drain_error next _ w i e rfl hi h he, rfl, ?_⟩
    intro n
    dsimp only
    rw [call_add]
    congr 1
    omega

/-- C132, `warm_up(samples)`: that many estimates are dropped; the lag stays as it was. -/
theorem C132_warm_up_samples (next : S → Res V × S) (w : Lagged S) (samples : ℕ) (hs : 0 < samples)
    (h : ∀ j < samples, ∃ v, call next w.st j = .ok v) : ∃ w', warmUp next samples w = (.ok (), w') ∧
      w'.lag = w.lag ∧ ∀ n, call next w'.st n = call next w.st (n + samples) := by
  unfold warmUp
  rw [if_pos (by omega), Int.toNat_natCast, discard_ok next samples w.st h]
  refine ⟨_, rfl, rfl, ?_⟩
  intro n
  dsimp only
  rw [call_add, Nat.add_comm]

/-- The number of estimates taken. -/
def taken : List Use → ℕ
  | [] => 0
  | .next :: l => taken l + 1
  | .warmUp _ :: l => taken l

/-- The history of an estimator: with `k` the number of dropped estimates, the lag has been reduced by `k` and the
underlying filter has been called `k` times more than estimates were taken. -/
theorem history (next : S → Res V × S) (s0 : S) (ops : List Use) : ∀ (lag : ℤ) (c : ℕ),
    (∀ n, Use.warmUp n ∈ ops → n ≤ 0) →
    (∀ j < taken ops + lag.toNat, ∃ v, call next s0 (c + j) = .ok v) →
    ∃ k : ℕ, (k = lag.toNat ∨ k = 0 ∧ ∀ n, Use.warmUp n ∉ ops) ∧
      ops.foldl (use next) ⟨lag, stateAfter next s0 c⟩ = ⟨lag - k, stateAfter next s0 (c + taken ops + k)⟩ := by
  induction ops with
  | nil => intro lag c _ _; exact ⟨0, Or.inr ⟨rfl, by simp⟩, by simp [taken]⟩
  | cons o ops ih =>
    intro lag c hops hok
    have hops' : ∀ n, Use.warmUp n ∈ ops → n ≤ 0 := fun n hn => hops n (List.mem_cons_of_mem _ hn)
    rw [List.foldl_cons]
    cases o with
    | next =>
      obtain ⟨k, hk, he⟩ := ih lag (c + 1) hops' (fun j hj => by
        obtain ⟨v, hv⟩ := hok (j + 1) (by simp only [taken]; omega)
        exact ⟨v, by rw [← hv]; congr 1; omega⟩)
      refine ⟨k, ?_, ?_⟩
      · rcases hk with hk | ⟨hk, hm⟩
        · exact Or.inl hk
        · exact Or.inr ⟨hk, fun n => by simp [hm n]⟩
      · have : use next ⟨lag, stateAfter next s0 c⟩ .next = ⟨lag, stateAfter next s0 (c + 1)⟩ := rfl
        rw [this, he]
        congr 2
        simp only [taken]
        omega
    | warmUp n =>
      have hn := hops n List.mem_cons_self
      have hd := drain_ok next lag.toNat ⟨lag, stateAfter next s0 c⟩ rfl (fun j hj => by
        obtain ⟨v, hv⟩ := hok j (by omega)
        exact ⟨v, by dsimp only; rw [call_add]; exact hv⟩)
      have hu : use next ⟨lag, stateAfter next s0 c⟩ (.warmUp n) =
          ⟨lag - lag.toNat, stateAfter next s0 (c + lag.toNat)⟩ := by
        simp only [use, warmUp]
        rw [if_neg (by omega), hd]
        dsimp only
        rw [stateAfter_add]
      obtain ⟨k, hk, he⟩ := ih (lag - lag.toNat) (c + lag.toNat) hops' (fun j hj => by
        obtain ⟨v, hv⟩ := hok (lag.toNat + j) (by simp only [taken]; omega)
        exact ⟨v, by rw [← hv]; congr 1; omega⟩)
      have hk0 : k = 0 := by
        rcases hk with hk | hk
        · omega
        · exact hk.1
      subst hk0
      refine ⟨lag.toNat, Or.inl rfl, ?_⟩
      rw [hu, he]
      simp only [taken, Nat.cast_zero, sub_zero, add_zero]
      congr 2
      omega

end

/-! ## The property: which sample an estimate belongs to -/

variable {K : Type*} [CommRing K] [LinearOrder K] {N M L : ℕ}

/-- C132 for `FIRFilter`: however estimates were taken and the filter was warmed up before, the next estimate is the
reference estimate of sample `n - lag - 1`, where `n` estimates were taken before and `lag` is what `filter_lag()`
then returns.

Full statement (false, see `C132_downsample_false` and `C132_samples_false`): for every `downsample` and with
`warm_up(samples)` among the calls before. -/
theorem C132_fir_partial (c : Coeffs K N M L) (K1 K2 : ℕ) (eta2 : K) (mid : Bool) (limit : ℕ)
    (offset : Option (Fin L → K)) (f : FIR K M L) (hf : FIR.new c K1 K2 eta2 mid 1 limit offset = .ok f)
    (src : ℕ → Res (Fin M → K)) (s : ℕ → Fin M → K) (ops : List Use) (hops : ∀ n, Use.warmUp n ∈ ops → n ≤ 0)
    (hlim : limit = 0 ∨ taken ops + K2 ≤ limit) (hs : ∀ j < taken ops + K2, src j = .ok (s j)) :
    (f.next src (ops.foldl (use (f.next src)) ⟨firLag K2, FIRState.init⟩).st).1 = .ok
      (future c.WT c.Ab c.Bb (Spec.ext s)
          (taken ops - (ops.foldl (use (f.next src)) ⟨firLag K2, FIRState.init⟩).lag - 1) K2 -
        past c.WT c.Af c.Bf (Spec.ext s)
          (taken ops - (ops.foldl (use (f.next src)) ⟨firLag K2, FIRState.init⟩).lag - 1) K1 + offset.getD 0) := by
  have hK2 := (fir_new_ok hf).1
  have hcall : ∀ n, n < taken ops + K2 → _ := fun n hn =>
    C31_fir_estimate c K1 K2 eta2 mid 1 limit offset f hf src s n (by omega) (by omega) (fun j hj => hs j (by omega))
  obtain ⟨k, hk, he⟩ := history (f.next src) FIRState.init ops (firLag K2) 0 hops (fun j hj => by
    rw [zero_add]
    exact ⟨_, hcall j (by unfold firLag at hj; omega)⟩)
  have he' : ops.foldl (use (f.next src)) ⟨firLag K2, FIRState.init⟩ =
      ⟨firLag K2 - k, stateAfter (f.next src) FIRState.init (taken ops + k)⟩ := by
    rw [zero_add] at he
    exact he
  have hk' : k ≤ K2 - 1 := by
    unfold firLag at hk
    omega
  rw [he']
  have := hcall (taken ops + k) (by omega)
  unfold call at this
  rw [this]
  have e : ((1 * (taken ops + k + 1) : ℕ) : ℤ) - K2 = taken ops - (firLag K2 - k) - 1 := by
    unfold firLag
    push_cast
    ring
  rw [e]

/-- C132 for `IIRFilter`, with the same formula. -/
theorem C132_iir_partial (c : Coeffs K N M L) (K2 : ℕ) (eta2 : K) (limit : ℕ) (f : IIR K N M L)
    (hf : IIR.new c K2 eta2 1 limit = .ok f) (hK2 : 1 ≤ K2)
    (src : ℕ → Res (Fin M → K)) (s : ℕ → Fin M → K) (ops : List Use) (hops : ∀ n, Use.warmUp n ∈ ops → n ≤ 0)
    (hlim : limit = 0 ∨ taken ops + K2 ≤ limit) (hs : ∀ j < taken ops + K2, src j = .ok (s j)) :
    (f.next src (ops.foldl (use (f.next src)) ⟨iirLag K2, IIRState.init⟩).st).1 = .ok
      (future c.WT c.Ab c.Bb (Spec.ext s)
          (taken ops - (ops.foldl (use (f.next src)) ⟨iirLag K2, IIRState.init⟩).lag - 1) K2 -
        past c.WT c.Af c.Bf (Spec.ext s)
          (taken ops - (ops.foldl (use (f.next src)) ⟨iirLag K2, IIRState.init⟩).lag - 1) (taken ops)) := by
  have hcall : ∀ n (m : ℕ), n < taken ops + K2 → (n : ℤ) + 1 - K2 ≤ m → _ := fun n m hn hm =>
    C33_iir_estimate c K2 eta2 1 limit f hf hK2 le_rfl src s n m (by simpa using hm) (by omega)
      (fun j hj => hs j (by omega))
  obtain ⟨k, hk, he⟩ := history (f.next src) IIRState.init ops (iirLag K2) 0 hops (fun j hj => by
    rw [zero_add]
    exact ⟨_, hcall j j (by unfold iirLag at hj; omega) (by omega)⟩)
  have he' : ops.foldl (use (f.next src)) ⟨iirLag K2, IIRState.init⟩ =
      ⟨iirLag K2 - k, stateAfter (f.next src) IIRState.init (taken ops + k)⟩ := by
    rw [zero_add] at he
    exact he
  have hk' : k ≤ K2 - 1 := by
    unfold iirLag at hk
    omega
  rw [he']
  have := hcall (taken ops + k) (taken ops) (by omega) (by omega)
  unfold call at this
  rw [this]
  have e : ((1 * (taken ops + k) : ℕ) : ℤ) + 1 - K2 = taken ops - (iirLag K2 - k) - 1 := by
    unfold iirLag
    push_cast
    ring
  rw [e]

/-- The history of an estimator with the lag `-1`. -/
theorem history_neg {S V : Type*} (next : S → Res V × S) (s0 : S) (ops : List Use)
    (hops : ∀ n, Use.warmUp n ∈ ops → n ≤ 0) :
    ∀ c : ℕ, ops.foldl (use next) ⟨-1, stateAfter next s0 c⟩ = ⟨-1, stateAfter next s0 (c + taken ops)⟩ := by
  induction ops with
  | nil => intro c; rfl
  | cons o ops ih =>
    intro c
    have ih' := ih fun n hn => hops n (List.mem_cons_of_mem _ hn)
    rw [List.foldl_cons]
    cases o with
    | next =>
      have : use next ⟨-1, stateAfter next s0 c⟩ .next = ⟨-1, stateAfter next s0 (c + 1)⟩ := rfl
      rw [this, ih']
      simp only [taken]
      congr 2
      omega
    | warmUp n =>
      have hn := hops n List.mem_cons_self
      have : use next ⟨-1, stateAfter next s0 c⟩ (.warmUp n) = ⟨-1, stateAfter next s0 c⟩ := by
        simp only [use, warmUp]
        rw [if_neg (by omega)]
        rfl
      rw [this, ih']
      rfl

/-- C132 for `BatchEstimator`: the same formula, and `warm_up()` changes nothing. -/
theorem C132_batch_partial (c : Coeffs K N M L) (K1 K2 : ℕ) (eta2 : K) (ds : ℤ) (limit : ℕ)
    (f : Batch K N M L) (hf : Batch.new c K1 K2 eta2 ds limit = .ok f)
    (src : ℕ → Res (Fin M → K)) (s : ℕ → Fin M → K) (ops : List Use) (hops : ∀ n, Use.warmUp n ∈ ops → n ≤ 0)
    (hlim : taken ops + taken ops / K1 + 1 ≤ limit)
    (hs : ∀ j < taken ops / K1 * K1 + (K1 + K2), src j = .ok (s j)) :
    (ops.foldl (use (f.next src)) ⟨batchLag, f.init⟩).lag = -1 ∧
    (f.next src (ops.foldl (use (f.next src)) ⟨batchLag, f.init⟩).st).1 = .ok
      (future c.WT c.Ab c.Bb (Spec.ext s)
          (taken ops - (ops.foldl (use (f.next src)) ⟨batchLag, f.init⟩).lag - 1) (K2 + (K1 - taken ops % K1)) -
        past c.WT c.Af c.Bf (Spec.ext s)
          (taken ops - (ops.foldl (use (f.next src)) ⟨batchLag, f.init⟩).lag - 1) (taken ops)) := by
  have he : ops.foldl (use (f.next src)) ⟨batchLag, f.init⟩ = ⟨-1, stateAfter (f.next src) f.init (taken ops)⟩ := by
    have := history_neg (f.next src) f.init ops hops 0
    rwa [zero_add] at this
  rw [he]
  refine ⟨rfl, ?_⟩
  have := C32_batch_estimate c K1 K2 eta2 ds limit f hf src s (taken ops) hlim hs
  unfold call at this
  rw [this]
  have e : (taken ops : ℤ) - -1 - 1 = taken ops := by ring
  dsimp only
  rw [e]

/-- C132 for `ParallelEstimator`: it delivers what the batch estimator delivers, warmed up or not. -/
theorem C132_parallel_partial (c : Coeffs ℝ N M L) (ef eb : Eig N) (K1 K2 : ℕ) (eta2 : ℝ) (ds : ℤ)
    (limit : ℕ) (p : Parallel N M L) (b : Batch ℝ N M L)
    (hp : Parallel.new c ef eb K1 K2 eta2 ds limit = .ok p) (hb : Batch.new c K1 K2 eta2 ds limit = .ok b)
    (hef : ef.Valid c.Af) (heb : eb.Valid c.Ab)
    (src : ℕ → Res (Fin M → ℝ)) (hsrc : ∀ n s, src n = .ok s → ∀ m, s m = 0 ∨ s m = 1)
    (ops : List Use) (hops : ∀ n, Use.warmUp n ∈ ops → n ≤ 0) :
    (ops.foldl (use (p.next src)) ⟨parallelLag, p.init⟩).lag =
        (ops.foldl (use (b.next src)) ⟨batchLag, b.init⟩).lag ∧
      (p.next src (ops.foldl (use (p.next src)) ⟨parallelLag, p.init⟩).st).1 =
        (b.next src (ops.foldl (use (b.next src)) ⟨batchLag, b.init⟩).st).1 := by
  have he := history_neg (b.next src) b.init ops hops 0
  have he' := history_neg (p.next src) p.init ops hops 0
  rw [zero_add] at he he'
  have e1 : ops.foldl (use (p.next src)) ⟨parallelLag, p.init⟩ = _ := he'
  have e2 : ops.foldl (use (b.next src)) ⟨batchLag, b.init⟩ = _ := he
  rw [e1, e2]
  exact ⟨rfl, C34_parallel_eq_batch c ef eb K1 K2 eta2 ds limit p b hp hb hef heb src hsrc (taken ops)⟩

/-- `warm_up(samples)` with a positive number of samples leaves the lag as it was, although the following estimates
belong to later samples. -/
theorem C132_samples_false : ∃ f, FIR.new exCoeffs 0 3 1 false 1 0 none = .ok f ∧
    let w := use (f.next exSrc) ⟨firLag 3, FIRState.init⟩ (.warmUp 1)
    w.lag = 1 ∧ (f.next exSrc w.st).1 = .ok ![4 / 9] ∧
      future exCoeffs.WT exCoeffs.Ab exCoeffs.Bb (Spec.ext fun n _ => if n % 2 = 0 then 1 else 0) (0 - w.lag - 1) 3 =
        ![2 / 9] := by
  obtain ⟨f, hf⟩ : ∃ f, FIR.new exCoeffs 0 3 1 false 1 0 none = .ok f := ⟨_, rfl⟩
  refine ⟨f, hf, ?_⟩
  have hcall : ∀ n, _ := fun n => C31_fir_estimate exCoeffs 0 3 1 false 1 0 none f hf exSrc
    (fun n _ => if n % 2 = 0 then 1 else 0) n (by norm_num) (by norm_num) (fun j _ => rfl)
  obtain ⟨w', e1, e2, e3⟩ := C132_warm_up_samples (f.next exSrc) ⟨firLag 3, FIRState.init⟩ 1 one_pos
    (fun j _ => ⟨_, hcall j⟩)
  have hw : use (f.next exSrc) ⟨firLag 3, FIRState.init⟩ (.warmUp 1) = w' := by
    simp only [use]
    exact congrArg Prod.snd e1
  intro w
  have : w = w' := hw
  rw [this, e2]
  refine ⟨rfl, ?_, ?_⟩
  · have := (e3 0).trans (hcall (0 + 1))
    unfold call at this
    refine this.trans ?_
    congr 1
    ext i
    simp [future, past, Spec.ext, exCoeffs, Finset.sum_range_succ, dotProduct, pow_succ]
    norm_num
  · ext i
    simp [firLag, future, Spec.ext, exCoeffs, Finset.sum_range_succ, dotProduct, pow_succ]
    norm_num

/-- With downsampling the lag does not tell the sample even of the first estimate. -/
theorem C132_downsample_false : ∃ f, FIR.new exCoeffs 0 3 1 false 2 0 none = .ok f ∧
    (f.next exSrc FIRState.init).1 = .ok ![4 / 9] ∧
      future exCoeffs.WT exCoeffs.Ab exCoeffs.Bb (Spec.ext fun n _ => if n % 2 = 0 then 1 else 0)
        (2 * (0 - firLag 3 - 1)) 3 = 0 ∧
      future exCoeffs.WT exCoeffs.Ab exCoeffs.Bb (Spec.ext fun n _ => if n % 2 = 0 then 1 else 0)
        (0 - firLag 3 - 1) 3 = ![2 / 9] := by
  refine ⟨_, rfl, ?_, ?_, ?_⟩
  · have := C31_fir_estimate exCoeffs 0 3 1 false 2 0 none _ rfl exSrc
      (fun n _ => if n % 2 = 0 then 1 else 0) 0 (by norm_num) (by norm_num) (fun j _ => rfl)
    unfold call at this
    refine this.trans ?_
    congr 1
    ext i
    simp [future, past, Spec.ext, exCoeffs, Finset.sum_range_succ, dotProduct, pow_succ]
    norm_num
  · ext i
    simp [firLag, future, Spec.ext, exCoeffs, Finset.sum_range_succ, dotProduct, pow_succ]
  · ext i
    simp [firLag, future, Spec.ext, exCoeffs, Finset.sum_range_succ, dotProduct, pow_succ]
    norm_num

/-- `C132_warm_up`, `C132_warm_up_samples`:
The hypotheses of `C132_fir_partial` are met: one estimate is taken, then the filter is warmed up; the next
estimate is that of sample 0. -/
example : ∃ f, FIR.new exCoeffs 2 3 1 false 1 0 none = .ok f ∧
    ([Use.next, .warmUp 0].foldl (use (f.next exSrc)) ⟨firLag 3, FIRState.init⟩).lag = 0 ∧
    (f.next exSrc ([Use.next, .warmUp 0].foldl (use (f.next exSrc)) ⟨firLag 3, FIRState.init⟩).st).1 =
      .ok ![14 / 9] := by
  refine ⟨_, rfl, rfl, (C132_fir_partial exCoeffs 2 3 1 false 0 none _ rfl exSrc
    (fun n _ => if n % 2 = 0 then 1 else 0) _ (by simp) (by norm_num) (fun j _ => rfl)).trans ?_⟩
  rw [show ((taken [Use.next, .warmUp 0] : ℤ) - _ - 1) = (0 : ℤ) from by
    show ((1 : ℕ) : ℤ) - 0 - 1 = 0
    norm_num]
  congr 1
  ext i
  simp [future, past, Spec.ext, exCoeffs, Finset.sum_range_succ, dotProduct, pow_succ]
  norm_num

/-- The hypotheses of the statements on a failing call are met: the source ends while the filter is warmed up. -/
example : ∃ f, FIR.new exCoeffs 2 4 1 false 1 1 none = .ok f ∧
    (warmUp (f.next exSrc) 0 ⟨firLag 4, FIRState.init⟩).1 = .error .stopIteration ∧
    (warmUp (f.next exSrc) 0 ⟨firLag 4, FIRState.init⟩).2.lag = 1 := ⟨_, rfl, rfl, rfl⟩

/-- The same for the other filters: a warmed up recursive filter, and a batch estimator, which a warm-up does not
change. -/
example : (∃ f, IIR.new exCoeffs 3 1 1 0 = .ok f ∧
      (f.next exSrc ([Use.warmUp 0].foldl (use (f.next exSrc)) ⟨iirLag 3, IIRState.init⟩).st).1 = .ok ![4 / 9]) ∧
    ∃ f, Batch.new exCoeffs 1 1 1 1 100 = .ok f ∧
      (f.next exSrc ([Use.warmUp 0].foldl (use (f.next exSrc)) ⟨batchLag, f.init⟩).st).1 = .ok ![4 / 3] := by
  refine ⟨⟨_, rfl, (C132_iir_partial exCoeffs 3 1 0 _ rfl (by norm_num) exSrc
    (fun n _ => if n % 2 = 0 then 1 else 0) _ (by simp) (by norm_num) (fun j _ => rfl)).trans ?_⟩, _, rfl,
    (C132_batch_partial exCoeffs 1 1 1 1 100 _ rfl exSrc
    (fun n _ => if n % 2 = 0 then 1 else 0) _ (by simp) (by simp [taken]) (fun j _ => rfl)).2.trans ?_⟩
  · rw [show ((taken [Use.warmUp 0] : ℤ) - _ - 1) = (-1 : ℤ) from by
      show ((0 : ℕ) : ℤ) - 0 - 1 = -1
      norm_num]
    congr 1
    ext i
    simp [future, past, Spec.ext, exCoeffs, Finset.sum_range_succ, dotProduct, pow_succ, taken]
    norm_num
  · rw [show ((taken [Use.warmUp 0] : ℤ) - _ - 1) = (0 : ℤ) from by
      show ((0 : ℕ) : ℤ) - -1 - 1 = 0
      norm_num]
    congr 1
    ext i
    simp [future, past, Spec.ext, exCoeffs, Finset.sum_range_succ, dotProduct, pow_succ, taken]
    norm_num

/-! # C133: demodulation -/

section
variable {S : Type*}

/-- Entry `j` of the first half of the channels. -/
def lower {h : ℕ} (j : Fin h) : Fin (2 * h) := ⟨j, by omega⟩

/-- Entry `j` of the second half of the channels. -/
def upper {h : ℕ} (j : Fin h) : Fin (2 * h) := ⟨h + j, by omega⟩

/-- A pair of channels as a complex number. -/
noncomputable def pair {h : ℕ} (v : Fin (2 * h) → ℝ) (j : Fin h) : ℂ := v (lower j) + v (upper j) * Complex.I

theorem kronEye_sum {h : ℕ} (R : Matrix (Fin 2) (Fin 2) ℝ) (v : Fin (2 * h) → ℝ) (i : Fin (2 * h)) :
    ∑ j, kronEye R h i j * v j =
      R i.divNat 0 * v (lower i.modNat) + R i.divNat 1 * v (upper i.modNat) := by
  have e0 : ∀ k : Fin h, finProdFinEquiv ((0 : Fin 2), k) = lower k := by
    intro k
    apply Fin.ext
    simp [finProdFinEquiv, lower]
  have e1 : ∀ k : Fin h, finProdFinEquiv ((1 : Fin 2), k) = upper k := by
    intro k
    apply Fin.ext
    simp [finProdFinEquiv, upper]
    omega
  have hd : ∀ (b : Fin 2) (k : Fin h), (finProdFinEquiv (b, k)).divNat = b ∧ (finProdFinEquiv (b, k)).modNat = k := by
    intro b k
    have := finProdFinEquiv.symm_apply_apply (b, k)
    rw [finProdFinEquiv_symm_apply] at this
    exact ⟨congrArg Prod.fst this, congrArg Prod.snd this⟩
  rw [← finProdFinEquiv.sum_comp, Fintype.sum_prod_type, Fin.sum_univ_two]
  unfold kronEye
  simp only [hd, mul_ite, mul_one, mul_zero, ite_mul, zero_mul, Finset.sum_ite_eq, Finset.mem_univ, if_true]
  rw [e0, e1]

theorem demodulate_vec {h : ℕ} (freq : ℝ) (next : S → Res (Fin (2 * h) → ℝ) × S) (t : Timed S) (v : Fin (2 * h) → ℝ)
    (t' : Timed S) (hv : timed next t = (.ok v, t')) :
    demodulate freq next t = (.ok fun i => rotation (-freq * t.time) i.divNat 0 * v (lower i.modNat) +
      rotation (-freq * t.time) i.divNat 1 * v (upper i.modNat), t') := by
  unfold demodulate
  rw [dif_pos (by omega), hv]
  dsimp only
  congr 2
  funext i
  rw [← kronEye_sum]
  have hh : 2 * h / 2 = h := by omega
  have key : ∀ m (e : 2 * h = 2 * m), ∑ j : Fin (2 * h), kronEye (rotation (-freq * t.time)) m (i.cast e) (j.cast e) *
      v j = ∑ j, kronEye (rotation (-freq * t.time)) h i j * v j := by
    intro m e
    obtain rfl : h = m := by omega
    rfl
  exact key _ _

/-! ## The property -/

/-- C133, one call: for an even number of channels `demodulate()` takes the next estimate and turns each pair of
channels by the modulation frequency times the number of estimates taken before; exceptions are passed on. -/
theorem C133_turn {h : ℕ} (freq : ℝ) (next : S → Res (Fin (2 * h) → ℝ) × S) (t : Timed S) :
    (∀ v, (next t.st).1 = .ok v → ∃ y, demodulate freq next t = (.ok y, ⟨t.time + 1, (next t.st).2⟩) ∧
      ∀ j, pair y j = Complex.exp (-(freq * t.time : ℝ) * Complex.I) * pair v j) ∧
    (∀ e, (next t.st).1 = .error e → demodulate freq next t = (.error e, ⟨t.time, (next t.st).2⟩)) := by
  constructor
  · intro v hv
    have ht : timed next t = (.ok v, ⟨t.time + 1, (next t.st).2⟩) := by
      unfold timed
      rw [show next t.st = (.ok v, (next t.st).2) from Prod.ext hv rfl]
    refine ⟨_, demodulate_vec freq next t v _ ht, ?_⟩
    intro j
    have l1 : (lower j).divNat = (0 : Fin 2) := by
      apply Fin.ext
      simp [Fin.divNat, lower, Nat.div_eq_of_lt j.2]
    have l2 : (lower j).modNat = j := by
      apply Fin.ext
      simp [Fin.modNat, lower, Nat.mod_eq_of_lt j.2]
    have hpos : 0 < h := by
      have := j.2
      omega
    have u1 : (upper j).divNat = (1 : Fin 2) := by
      apply Fin.ext
      simp [Fin.divNat, upper, Nat.div_eq_of_lt j.2, hpos]
    have u2 : (upper j).modNat = j := by
      apply Fin.ext
      simp [Fin.modNat, upper, Nat.mod_eq_of_lt j.2]
    have hr : -((freq * t.time : ℝ) : ℂ) * Complex.I = ((-freq * t.time : ℝ) : ℂ) * Complex.I := by
      push_cast
      ring
    rw [hr, Complex.exp_mul_I, ← Complex.ofReal_cos, ← Complex.ofReal_sin]
    unfold pair
    simp only [l1, l2, u1, u2, rotation, Matrix.of_apply, Matrix.cons_val_zero, Matrix.cons_val_one,
      Matrix.cons_val_fin_one]
    push_cast
    linear_combination -(Complex.sin (-freq * t.time) * v (upper j)) * Complex.I_sq
  · intro e he
    unfold demodulate timed
    rw [dif_pos (by omega), show next t.st = (.error e, (next t.st).2) from Prod.ext he rfl]

/-- C133, an odd number of channels is refused and no estimate is taken. -/
theorem C133_odd {L : ℕ} (hL : L % 2 = 1) (freq : ℝ) (next : S → Res (Fin L → ℝ) × S) (t : Timed S) :
    demodulate freq next t = (.error .exception, t) := by
  unfold demodulate
  rw [dif_neg (by omega)]

example : demodulate 1 (fun _ : Unit => (.ok fun _ : Fin 3 => (1 : ℝ), ())) ⟨2, ()⟩ = (.error .exception, ⟨2, ()⟩) :=
  C133_odd rfl _ _ _

/-- The estimator after a number of calls, of `demodulate()` where the list says `true` and of `next()` otherwise. -/
noncomputable def afterCalls {h : ℕ} (freq : ℝ) (next : S → Res (Fin (2 * h) → ℝ) × S) (s0 : S) (l : List Bool) :
    Timed S :=
  l.foldl (fun t b => if b then (demodulate freq next t).2 else (timed next t).2) ⟨0, s0⟩

/-- C133, many calls: whichever mix of `next()` and `demodulate()` came before, estimate number `n` is turned by `n`
times the modulation frequency. -/
theorem C133_nth {h : ℕ} (freq : ℝ) (next : S → Res (Fin (2 * h) → ℝ) × S) (s0 : S) (l : List Bool)
    (v : Fin (2 * h) → ℝ) (hok : ∀ j < l.length, ∃ v, call next s0 j = .ok v) (hv : call next s0 l.length = .ok v) :
    ∃ y, (demodulate freq next (afterCalls freq next s0 l)).1 = .ok y ∧
      ∀ j, pair y j = Complex.exp (-(freq * l.length : ℝ) * Complex.I) * pair v j := by
  have hst : ∀ l : List Bool, (∀ j < l.length, ∃ v, call next s0 j = .ok v) →
      afterCalls freq next s0 l = ⟨l.length, stateAfter next s0 l.length⟩ := by
    intro l
    induction l using List.reverseRecOn with
    | nil => intro _; rfl
    | append_singleton l b ih =>
      intro hok
      have ih' := ih fun j hj => hok j (by simp; omega)
      obtain ⟨w, hw⟩ := hok l.length (by simp)
      unfold afterCalls at ih' ⊢
      rw [List.foldl_append, ih']
      simp only [List.foldl_cons, List.foldl_nil, List.length_append, List.length_cons, List.length_nil]
      cases b with
      | true =>
        obtain ⟨y, hy, -⟩ := (C133_turn freq next ⟨l.length, stateAfter next s0 l.length⟩).1 w hw
        rw [if_pos rfl, hy]
        rfl
      | false =>
        rw [if_neg (by simp)]
        unfold timed
        rw [show next (stateAfter next s0 l.length) = (.ok w, (next (stateAfter next s0 l.length)).2) from
          Prod.ext hw rfl]
        rfl
  rw [hst l hok]
  obtain ⟨y, hy, hp⟩ := (C133_turn freq next ⟨l.length, stateAfter next s0 l.length⟩).1 v hv
  exact ⟨y, by rw [hy], hp⟩

end

omit [LinearOrder K] in
/-- The counter of a `FIRFilter` counts the estimates returned, as `timed` does. -/
theorem fir_time (f : FIR K M L) (src : ℕ → Res (Fin M → K)) (st : FIRState K M) :
    (f.next src st).2.timeIndex = (timed (f.next src) ⟨st.timeIndex, st⟩).2.time := by
  unfold timed FIR.next
  simp only
  split_ifs
  · rfl
  · rcases firPull src st.calls f.ds with ⟨e | rows, k⟩
    · cases e <;> rfl
    · rfl
  · rcases firPull src st.calls f.ds with ⟨e | rows, k⟩
    · cases e <;> rfl
    · rfl

omit [LinearOrder K] in
/-- The counter of an `IIRFilter` counts the estimates returned, as `timed` does. -/
theorem iir_time (f : IIR K N M L) (src : ℕ → Res (Fin M → K)) (st : IIRState K N M) :
    (f.next src st).2.timeIndex = (timed (f.next src) ⟨st.timeIndex, st⟩).2.time := by
  have hpass : ∀ st : IIRState K N M, (∀ v, (f.pass src st).1 = .ok (some v) →
        (f.pass src st).2.timeIndex = st.timeIndex + 1) ∧
      ((∀ v, (f.pass src st).1 ≠ .ok (some v)) → (f.pass src st).2.timeIndex = st.timeIndex) := by
    intro st
    unfold IIR.pass
    simp only
    split_ifs
    · exact ⟨fun v hv => by simp at hv, fun _ => rfl⟩
    all_goals
      rcases src st.calls with e | s
      · cases e <;> exact ⟨fun v hv => by simp at hv, fun _ => rfl⟩
      · constructor
        · intro v hv
          first
          | rfl
          | simp at hv
        · intro hv
          first
          | rfl
          | exact absurd rfl (hv _)
  have hfuel : ∀ n (st : IIRState K N M), (∀ v, (f.nextFuel src n st).1 = .ok v →
        (f.nextFuel src n st).2.timeIndex = st.timeIndex + 1) ∧
      (∀ e, (f.nextFuel src n st).1 = .error e → (f.nextFuel src n st).2.timeIndex = st.timeIndex) := by
    intro n
    induction n with
    | zero => intro st; exact ⟨fun v hv => by (cases hv), fun _ _ => rfl⟩
    | succ n ih =>
      intro st
      rw [IIR.nextFuel]
      have hp := hpass st
      rcases hq : f.pass src st with ⟨e | _ | v, st'⟩ <;> rw [hq] at hp
      · refine ⟨fun v hv => ?_, fun _ _ => hp.2 (by simp)⟩
        cases hv
      · have h0 : st'.timeIndex = st.timeIndex := hp.2 (by simp)
        dsimp only
        rw [← h0]
        exact ih st'
      · exact ⟨fun _ _ => hp.1 v rfl, fun e he => by cases he⟩
  have := hfuel (f.ds + 1) st
  unfold timed
  change (f.nextFuel src (f.ds + 1) st).2.timeIndex = _
  have hdef : f.next src st = f.nextFuel src (f.ds + 1) st := rfl
  rw [hdef]
  rcases hn : f.nextFuel src (f.ds + 1) st with ⟨e | v, st'⟩
  · rw [hn] at this
    exact this.2 e rfl
  · rw [hn] at this
    exact this.1 v rfl

/-- C133 for `BatchEstimator`: estimate `k` belongs to sample `k` and is turned by `k` times the modulation
frequency. -/
theorem C133_batch {h : ℕ} (c : Coeffs ℝ N M (2 * h)) (K1 K2 : ℕ) (eta2 : ℝ) (ds : ℤ) (limit : ℕ)
    (f : Batch ℝ N M (2 * h)) (hf : Batch.new c K1 K2 eta2 ds limit = .ok f) (src : ℕ → Res (Fin M → ℝ))
    (s : ℕ → Fin M → ℝ) (hs : ∀ j, src j = .ok (s j)) (freq : ℝ) (l : List Bool)
    (hlim : l.length + l.length / K1 + 1 ≤ limit) :
    ∃ y, (demodulate freq (f.next src) (afterCalls freq (f.next src) f.init l)).1 = .ok y ∧
      ∀ j, pair y j = Complex.exp (-(freq * l.length : ℝ) * Complex.I) *
        pair (future c.WT c.Ab c.Bb (Spec.ext s) l.length (K2 + (K1 - l.length % K1)) -
          past c.WT c.Af c.Bf (Spec.ext s) l.length l.length) j := by
  refine C133_nth freq (f.next src) f.init l _ (fun j hj => ⟨_, C32_batch_estimate c K1 K2 eta2 ds limit f hf src s j
    ?_ (fun j _ => hs j)⟩) (C32_batch_estimate c K1 K2 eta2 ds limit f hf src s l.length hlim (fun j _ => hs j))
  have : j / K1 ≤ l.length / K1 := Nat.div_le_div_right hj.le
  omega

/-- C133 for `FIRFilter`: estimate `k` belongs to sample `q = k - (K2 - 1)` and is turned by `q` times the modulation
frequency and a further fixed angle, `K2 - 1` times that frequency.

Full statement (false, see `C133_fir_false`): it is turned by `q` times the modulation frequency, so that different
estimators agree. -/
theorem C133_fir_partial {h : ℕ} (c : Coeffs ℝ N M (2 * h)) (K1 K2 : ℕ) (eta2 : ℝ) (limit : ℕ)
    (offset : Option (Fin (2 * h) → ℝ)) (f : FIR ℝ M (2 * h))
    (hf : FIR.new c K1 K2 eta2 false 1 limit offset = .ok f) (src : ℕ → Res (Fin M → ℝ))
    (s : ℕ → Fin M → ℝ) (hs : ∀ j, src j = .ok (s j)) (freq : ℝ) (l : List Bool) (q : ℤ)
    (hq : q = l.length - ((K2 : ℤ) - 1)) (hlim : limit = 0 ∨ l.length + 1 ≤ limit) :
    ∃ y, (demodulate freq (f.next src) (afterCalls freq (f.next src) FIRState.init l)).1 = .ok y ∧
      ∀ j, pair y j = Complex.exp (-(freq * ((K2 : ℝ) - 1) : ℝ) * Complex.I) *
        (Complex.exp (-(freq * q : ℝ) * Complex.I) * pair (future c.WT c.Ab c.Bb (Spec.ext s) q K2 -
          past c.WT c.Af c.Bf (Spec.ext s) q K1 + offset.getD 0) j) := by
  have hK2 := (fir_new_ok hf).1
  have hcall : ∀ n ≤ l.length, _ := fun n hn =>
    C31_fir_estimate c K1 K2 eta2 false 1 limit offset f hf src s n (by omega) (by omega) (fun j _ => hs j)
  obtain ⟨y, h1, h2⟩ := C133_nth freq (f.next src) FIRState.init l _ (fun j hj => ⟨_, hcall j hj.le⟩)
    (hcall l.length le_rfl)
  refine ⟨y, h1, fun j => ?_⟩
  have e : ((1 * (l.length + 1) : ℕ) : ℤ) - K2 = q := by
    rw [hq]
    push_cast
    ring
  rw [h2 j, e, ← mul_assoc, ← Complex.exp_add]
  congr 2
  rw [hq]
  push_cast
  ring

/-- Coefficients with two outputs, used in the examples. -/
noncomputable def exPair : Coeffs ℝ 1 1 (2 * 1) := ⟨!![1 / 2], !![1 / 3], !![1], !![2], !![1; 1]⟩

/-- Two estimators with the same estimate of sample 0: demodulated, they differ in their sign. -/
theorem C133_fir_false : ∃ f b, FIR.new exPair 0 2 1 false 1 0 none = .ok f ∧ Batch.new exPair 1 1 1 1 100 = .ok b ∧
    ∃ y z, (demodulate Real.pi (f.next fun _ => .ok fun _ => 1) (afterCalls Real.pi (f.next fun _ => .ok fun _ => 1)
        FIRState.init [true])).1 = .ok y ∧
      (demodulate Real.pi (b.next fun _ => .ok fun _ => 1) ⟨0, b.init⟩).1 = .ok z ∧
      (call (f.next fun _ => .ok fun _ => 1) FIRState.init 1) = (call (b.next fun _ => .ok fun _ => 1) b.init 0) ∧
      pair y 0 = -pair z 0 ∧ pair z 0 ≠ 0 := by
  obtain ⟨f, hf⟩ : ∃ f, FIR.new exPair 0 2 1 false 1 0 none = .ok f := by
    rw [C31_fir_accepts]
    norm_num
  obtain ⟨b, hb⟩ : ∃ b, Batch.new exPair 1 1 1 1 100 = .ok b := by
    rw [(C32_batch_accepts exPair 1 1 1 1 100).1]
    norm_num
  refine ⟨f, b, hf, hb, ?_⟩
  obtain ⟨y, hy1, hy2⟩ := C133_fir_partial exPair 0 2 1 0 none f hf (fun _ => .ok fun _ => 1) (fun _ _ => 1)
    (fun _ => rfl) Real.pi [true] 0 (by norm_num) (by norm_num)
  obtain ⟨z, hz1, hz2⟩ := C133_batch exPair 1 1 1 1 100 b hb (fun _ => .ok fun _ => 1) (fun _ _ => 1)
    (fun _ => rfl) Real.pi [] (by norm_num)
  have hest : (call (f.next fun _ => .ok fun _ => 1) FIRState.init 1) =
      (call (b.next fun _ => .ok fun _ => 1) b.init 0) := by
    rw [C31_fir_estimate exPair 0 2 1 false 1 0 none f hf (fun _ => .ok fun _ => 1) (fun _ _ => 1) 1 (by norm_num)
      (by norm_num) (fun _ _ => rfl), C32_batch_estimate exPair 1 1 1 1 100 b hb (fun _ => .ok fun _ => 1)
      (fun _ _ => 1) 0 (by norm_num) (fun _ _ => rfl)]
    simp [past]
  have hexp : Complex.exp (-((Real.pi * (((2 : ℕ) : ℝ) - 1) : ℝ) : ℂ) * Complex.I) = -1 := by
    have : -((Real.pi * (((2 : ℕ) : ℝ) - 1) : ℝ) : ℂ) * Complex.I = -(Real.pi * Complex.I) := by
      push_cast
      ring
    rw [this, Complex.exp_neg, Complex.exp_pi_mul_I]
    norm_num
  refine ⟨y, z, hy1, hz1, hest, ?_, ?_⟩
  · rw [hy2 0, hz2 0, hexp]
    simp [past]
  · rw [hz2 0]
    simp only [List.length_nil, Nat.cast_zero, mul_zero, Complex.ofReal_zero, neg_zero, zero_mul, Complex.exp_zero,
      one_mul]
    intro h0
    have := congrArg Complex.re h0
    simp [pair, lower, upper, exPair, future, past, Spec.ext, Finset.sum_range_succ, dotProduct, pow_succ] at this
    norm_num at this

/-- an estimator with two channels, whose estimates are 1 and `n` -/
def exTurn : ℕ → Res (Fin (2 * 1) → ℝ) × ℕ := fun n => (.ok ![1, n], n + 1)

/-- `C133_turn`, `C133_nth`: the third estimate of it, after a call of `demodulate()` and one of `next()`. -/
example : ∃ y, (demodulate (1 / 2) exTurn (afterCalls (1 / 2) exTurn 0 [true, false])).1 = .ok y ∧
    ∀ j, pair y j = Complex.exp (-((1 / 2) * (2 : ℕ) : ℝ) * Complex.I) * pair ![1, ((2 : ℕ) : ℝ)] j := by
  have h : ∀ j, call exTurn 0 j = .ok ![1, ((j : ℕ) : ℝ)] := fun j => by
    have hs : ∀ j, stateAfter exTurn 0 j = j := fun j => by
      induction j with
      | zero => rfl
      | succ j ih => rw [stateAfter, ih]; rfl
    rw [call, hs]
    rfl
  exact C133_nth (1 / 2) exTurn 0 [true, false] ![1, ((2 : ℕ) : ℝ)] (fun j _ => ⟨_, h j⟩) (h 2)

/-- `C133_fir_partial`, `C133_batch`: both kinds of estimators exist for these coefficients. -/
example : (∃ f, FIR.new exPair 2 3 1 false 1 0 none = .ok f ∧
      ∃ y, (demodulate (1 / 2) (f.next fun _ => .ok 1) (afterCalls (1 / 2) (f.next fun _ => .ok 1) FIRState.init [true, false])).1 = .ok y) ∧
    ∃ f, Batch.new exPair 2 1 1 1 100 = .ok f ∧
      ∃ y, (demodulate (1 / 2) (f.next fun _ => .ok 1) (afterCalls (1 / 2) (f.next fun _ => .ok 1) f.init [true, false])).1 = .ok y := by
  constructor
  · obtain ⟨f, hf⟩ : ∃ f, FIR.new exPair 2 3 1 false 1 0 none = .ok f := by
      unfold FIR.new
      norm_num
    obtain ⟨y, hy, -⟩ := C133_fir_partial exPair 2 3 1 0 none f hf (fun _ => .ok 1) (fun _ => 1) (fun _ => rfl) (1 / 2) [true, false]
      _ rfl (.inl rfl)
    exact ⟨f, hf, y, hy⟩
  · obtain ⟨f, hf⟩ : ∃ f, Batch.new exPair 2 1 1 1 100 = .ok f := by
      unfold Batch.new
      norm_num
    obtain ⟨y, hy, -⟩ := C133_batch exPair 2 1 1 1 100 f hf (fun _ => .ok 1) (fun _ => 1) (fun _ => rfl) (1 / 2) [true, false]
      (by decide)
    exact ⟨f, hf, y, hy⟩


end Cbadc.Estimator
