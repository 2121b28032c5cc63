import Verif.Lemmas.Estimator

/-! Helper lemmas for the IIR estimator. -/

namespace Cbadc.Estimator
open Matrix Cbadc.Spec Cbadc.Streams

variable {K : Type*} [CommRing K] {N M L : ℕ}

/-- forward mean before sample `k`, using `n` terms -/
def fwdSum (Af : Matrix (Fin N) (Fin N) K) (Bf : Matrix (Fin N) (Fin M) K) (x : ℤ → Fin M → K)
    (k : ℤ) (n : ℕ) : Fin N → K :=
  ∑ i ∈ Finset.range n, (Af ^ i * Bf) *ᵥ x (k - 1 - i)

theorem fwdSum_succ (Af : Matrix (Fin N) (Fin N) K) (Bf : Matrix (Fin N) (Fin M) K) (x : ℤ → Fin M → K)
    (k : ℤ) (n : ℕ) :
    fwdSum Af Bf x (k + 1) (n + 1) = Af *ᵥ fwdSum Af Bf x k n + Bf *ᵥ x k := by
  unfold fwdSum
  rw [Finset.sum_range_succ', Matrix.mulVec_sum]
  congr 1
  · apply Finset.sum_congr rfl
    intro i _
    rw [Matrix.mulVec_mulVec, ← Matrix.mul_assoc, ← pow_succ']
    congr 2
    push_cast; ring
  · simp

theorem mulVec_fwdSum (WT : Matrix (Fin L) (Fin N) K) (Af : Matrix (Fin N) (Fin N) K)
    (Bf : Matrix (Fin N) (Fin M) K) (x : ℤ → Fin M → K) (k : ℤ) (n : ℕ) :
    WT *ᵥ fwdSum Af Bf x k n = past WT Af Bf x k n := by
  unfold fwdSum past
  rw [Matrix.mulVec_sum]
  apply Finset.sum_congr rfl
  intro i _
  rw [Matrix.mulVec_mulVec]

/-- backward mean from sample `k`, using `n` terms -/
def bwdSum (Ab : Matrix (Fin N) (Fin N) K) (Bb : Matrix (Fin N) (Fin M) K) (x : ℤ → Fin M → K)
    (k : ℤ) (n : ℕ) : Fin N → K :=
  ∑ i ∈ Finset.range n, (Ab ^ i * Bb) *ᵥ x (k + i)

theorem bwdSum_succ (Ab : Matrix (Fin N) (Fin N) K) (Bb : Matrix (Fin N) (Fin M) K) (x : ℤ → Fin M → K)
    (k : ℤ) (n : ℕ) :
    bwdSum Ab Bb x k (n + 1) = Ab *ᵥ bwdSum Ab Bb x (k + 1) n + Bb *ᵥ x k := by
  unfold bwdSum
  rw [Finset.sum_range_succ', Matrix.mulVec_sum]
  congr 1
  · apply Finset.sum_congr rfl
    intro i _
    rw [Matrix.mulVec_mulVec, ← Matrix.mul_assoc, ← pow_succ']
    congr 2
    push_cast; ring
  · simp

theorem mulVec_bwdSum (WT : Matrix (Fin L) (Fin N) K) (Ab : Matrix (Fin N) (Fin N) K)
    (Bb : Matrix (Fin N) (Fin M) K) (x : ℤ → Fin M → K) (k : ℤ) (n : ℕ) :
    WT *ᵥ bwdSum Ab Bb x k n = future WT Ab Bb x k n := by
  unfold bwdSum future
  rw [Matrix.mulVec_sum]
  apply Finset.sum_congr rfl
  intro i _
  rw [Matrix.mulVec_mulVec]

theorem ext_of_nonneg (s : ℕ → Fin M → K) (j : ℕ) : Spec.ext s (j : ℤ) = valued (s j) := by
  unfold Spec.ext
  rw [if_pos (by omega)]
  rfl

theorem ext_of_neg (s : ℕ → Fin M → K) (j : ℤ) (h : j < 0) : Spec.ext s j = 0 := by
  unfold Spec.ext
  rw [if_neg (by omega)]

/-- terms that refer to samples before the start of the stream do not contribute -/
theorem past_eq_of_le (WT : Matrix (Fin L) (Fin N) K) (Af : Matrix (Fin N) (Fin N) K)
    (Bf : Matrix (Fin N) (Fin M) K) (s : ℕ → Fin M → K) (k : ℤ) (n m : ℕ) (hn : k ≤ n) (hm : k ≤ m) :
    past WT Af Bf (Spec.ext s) k n = past WT Af Bf (Spec.ext s) k m := by
  have key : ∀ a b : ℕ, k ≤ a → a ≤ b →
      past WT Af Bf (Spec.ext s) k a = past WT Af Bf (Spec.ext s) k b := by
    intro a b ha hab
    unfold past
    apply Finset.sum_subset (Finset.range_mono hab)
    intro i _ hi
    have : a ≤ i := by simpa using hi
    rw [ext_of_neg s _ (by omega), Matrix.mulVec_zero]
  rcases le_total n m with h | h
  · exact key n m hn h
  · exact (key m n hm h).symm

/-- invariant of the IIR filter after `p` passes -/
structure IIRInv (f : IIR K N M L) (s : ℕ → Fin M → K) (p : ℕ) (st : IIRState K N M) : Prop where
  iteration : st.iteration = p
  calls : st.calls = p
  buf : ∀ k < f.K2, st.buf k = Spec.ext s ((p : ℤ) - f.K2 + k)
  mean : st.mean = fwdSum f.c.Af f.c.Bf (Spec.ext s) ((p : ℤ) - f.K2 + 1) p

theorem iirInv_init (f : IIR K N M L) (s : ℕ → Fin M → K) : IIRInv f s 0 IIRState.init := by
  refine ⟨rfl, rfl, ?_, ?_⟩
  · intro k hk
    rw [ext_of_neg s _ (by omega)]
    rfl
  · simp [fwdSum, IIRState.init]

/-- output of pass `p` -/
def iirOut (f : IIR K N M L) (s : ℕ → Fin M → K) (p : ℕ) : Fin L → K :=
  future f.c.WT f.c.Ab f.c.Bb (Spec.ext s) ((p : ℤ) + 1 - f.K2) f.K2 -
    past f.c.WT f.c.Af f.c.Bf (Spec.ext s) ((p : ℤ) + 1 - f.K2) p

theorem iir_pass_ok (f : IIR K N M L) (hh : f.h = (iirLookahead f.c f.K2).1)
    (src : ℕ → Res (Fin M → K)) (s : ℕ → Fin M → K)
    (st : IIRState K N M) (p : ℕ) (hK : f.K2 ≠ 0) (hds : f.ds ≠ 0)
    (hlim : f.limit = 0 ∨ p + 1 ≤ f.limit) (hs : src p = .ok (s p)) (hI : IIRInv f s p st) :
    ∃ st', f.pass src st = (.ok (if p % f.ds = 0 then some (iirOut f s p) else none), st') ∧
      IIRInv f s (p + 1) st' := by
  have hbuf : ∀ k < f.K2, Function.update (roll f.K2 1 st.buf) (f.K2 - 1) (valued (s p)) k =
      Spec.ext s (((p + 1 : ℕ) : ℤ) - f.K2 + k) := by
    intro k hk
    rw [Function.update_apply]
    by_cases h : k = f.K2 - 1
    · rw [if_pos h]
      have : ((p + 1 : ℕ) : ℤ) - f.K2 + k = (p : ℤ) := by omega
      rw [this, ext_of_nonneg]
    · rw [if_neg h, roll, Nat.mod_eq_of_lt (by omega), hI.buf _ (by omega)]
      congr 1
      push_cast; ring
  have hmean : f.c.Af *ᵥ st.mean + f.c.Bf *ᵥ
      Function.update (roll f.K2 1 st.buf) (f.K2 - 1) (valued (s p)) 0 =
      fwdSum f.c.Af f.c.Bf (Spec.ext s) (((p + 1 : ℕ) : ℤ) - f.K2 + 1) (p + 1) := by
    rw [fwdSum_succ, hbuf 0 (by omega), hI.mean]
    congr 2
    · congr 1; push_cast; ring
    · simp
  have hout : tensordot f.K2 f.h
      (Function.update (roll f.K2 1 st.buf) (f.K2 - 1) (valued (s p))) + -(f.c.WT *ᵥ st.mean) =
      iirOut f s p := by
    rw [hI.mean, mulVec_fwdSum, ← sub_eq_add_neg]
    unfold iirOut
    congr 1
    · rw [tensordot_eq]
      unfold future
      apply Finset.sum_congr rfl
      intro k hk
      have hk := Finset.mem_range.mp hk
      rw [hbuf k hk, hh, iirLookahead_h _ _ _ hk]
      congr 2
    · congr 1; ring
  unfold IIR.pass
  simp only [hI.iteration, hI.calls, hs]
  rw [if_neg (by omega), if_neg hK, if_neg hds]
  by_cases hp : p % f.ds = 0
  · rw [if_pos (by simpa using hp), if_pos hp]
    exact ⟨_, by rw [hout], ⟨rfl, rfl, hbuf, hmean⟩⟩
  · rw [if_neg (by simpa using hp), if_neg hp]
    exact ⟨_, rfl, ⟨rfl, rfl, hbuf, hmean⟩⟩

theorem iir_nextFuel_ok (f : IIR K N M L) (hh : f.h = (iirLookahead f.c f.K2).1)
    (src : ℕ → Res (Fin M → K)) (s : ℕ → Fin M → K)
    (hK : f.K2 ≠ 0) (hds : f.ds ≠ 0) (d : ℕ) :
    ∀ (fuel p : ℕ) (st : IIRState K N M), d < fuel → (f.limit = 0 ∨ p + d + 1 ≤ f.limit) →
      (∀ j ≤ p + d, src j = .ok (s j)) → IIRInv f s p st →
      (∀ j < d, (p + j) % f.ds ≠ 0) → (p + d) % f.ds = 0 →
      ∃ st', f.nextFuel src fuel st = (.ok (iirOut f s (p + d)), st') ∧ IIRInv f s (p + d + 1) st' := by
  induction d with
  | zero =>
    intro fuel p st hf hlim hs hI _ hd
    obtain ⟨fuel, rfl⟩ : ∃ k, fuel = k + 1 := ⟨fuel - 1, by omega⟩
    obtain ⟨st', h1, h2⟩ := iir_pass_ok f hh src s st p hK hds (by omega) (hs p (by omega)) hI
    rw [if_pos (by simpa using hd)] at h1
    exact ⟨st', by simp [IIR.nextFuel, h1], h2⟩
  | succ d ih =>
    intro fuel p st hf hlim hs hI hnd hd
    obtain ⟨fuel, rfl⟩ : ∃ k, fuel = k + 1 := ⟨fuel - 1, by omega⟩
    obtain ⟨st', h1, h2⟩ := iir_pass_ok f hh src s st p hK hds (by omega) (hs p (by omega)) hI
    rw [if_neg (by simpa using hnd 0 (by omega))] at h1
    obtain ⟨st'', h3, h4⟩ := ih fuel (p + 1) st' (by omega) (by omega)
      (fun j hj => hs j (by omega)) h2
      (fun j hj => by
        have := hnd (j + 1) (by omega)
        rwa [show p + 1 + j = p + (j + 1) by omega])
      (by rwa [show p + 1 + d = p + (d + 1) by omega])
    rw [show p + 1 + d = p + (d + 1) by omega] at h3 h4
    exact ⟨st'', by simp [IIR.nextFuel, h1, h3], h4⟩

/-- passes made after `n` calls -/
def iirPasses (ds : ℕ) : ℕ → ℕ
  | 0 => 0
  | n + 1 => ds * n + 1

theorem iir_next_ok (f : IIR K N M L) (hh : f.h = (iirLookahead f.c f.K2).1)
    (src : ℕ → Res (Fin M → K)) (s : ℕ → Fin M → K)
    (hK : f.K2 ≠ 0) (hds : f.ds ≠ 0) (n : ℕ) (st : IIRState K N M)
    (hlim : f.limit = 0 ∨ f.ds * n + 1 ≤ f.limit) (hs : ∀ j ≤ f.ds * n, src j = .ok (s j))
    (hI : IIRInv f s (iirPasses f.ds n) st) :
    ∃ st', f.next src st = (.ok (iirOut f s (f.ds * n)), st') ∧ IIRInv f s (f.ds * n + 1) st' := by
  cases n with
  | zero =>
    have := iir_nextFuel_ok f hh src s hK hds 0 (f.ds + 1) 0 st (by omega) (by simpa using hlim)
      (by simpa using hs) hI (by intro j hj; omega) (by simp)
    simpa [IIR.next] using this
  | succ n =>
    have hmul : f.ds * (n + 1) = f.ds * n + f.ds := by ring
    have e : iirPasses f.ds (n + 1) + (f.ds - 1) = f.ds * (n + 1) := by
      simp only [iirPasses]; omega
    have := iir_nextFuel_ok f hh src s hK hds (f.ds - 1) (f.ds + 1) (iirPasses f.ds (n + 1)) st
      (by omega) (by rw [e]; exact hlim) (by rw [e]; exact hs) hI
      (by
        intro j hj
        simp only [iirPasses]
        rw [add_assoc, Nat.mul_add_mod, Nat.mod_eq_of_lt (by omega)]
        omega)
      (by rw [e]; simp)
    rw [e] at this
    exact this

theorem iir_stateAfter (f : IIR K N M L) (hh : f.h = (iirLookahead f.c f.K2).1)
    (src : ℕ → Res (Fin M → K)) (s : ℕ → Fin M → K)
    (hK : f.K2 ≠ 0) (hds : f.ds ≠ 0) (n : ℕ)
    (hlim : f.limit = 0 ∨ iirPasses f.ds n ≤ f.limit) (hs : ∀ j < iirPasses f.ds n, src j = .ok (s j)) :
    IIRInv f s (iirPasses f.ds n) (stateAfter (f.next src) IIRState.init n) := by
  induction n with
  | zero => exact iirInv_init f s
  | succ n ih =>
    have hle : iirPasses f.ds n ≤ f.ds * n := by
      cases n with
      | zero => simp [iirPasses]
      | succ n => simp only [iirPasses]; have : f.ds * (n + 1) = f.ds * n + f.ds := by ring
                  omega
    simp only [iirPasses] at hlim hs
    have hI := ih (by omega) (fun j hj => hs j (by omega))
    obtain ⟨st', h1, h2⟩ := iir_next_ok f hh src s hK hds n _ hlim (fun j hj => hs j (by omega)) hI
    simp only [stateAfter, h1]
    exact h2

theorem iir_call (f : IIR K N M L) (hh : f.h = (iirLookahead f.c f.K2).1)
    (src : ℕ → Res (Fin M → K)) (s : ℕ → Fin M → K)
    (hK : f.K2 ≠ 0) (hds : f.ds ≠ 0) (n : ℕ)
    (hlim : f.limit = 0 ∨ f.ds * n + 1 ≤ f.limit) (hs : ∀ j ≤ f.ds * n, src j = .ok (s j)) :
    call (f.next src) IIRState.init n = .ok (iirOut f s (f.ds * n)) := by
  have hle : iirPasses f.ds n ≤ f.ds * n := by
    cases n with
    | zero => simp [iirPasses]
    | succ n => simp only [iirPasses]; have : f.ds * (n + 1) = f.ds * n + f.ds := by ring
                omega
  have hI := iir_stateAfter f hh src s hK hds n (by omega) (fun j hj => hs j (by omega))
  obtain ⟨st', h1, -⟩ := iir_next_ok f hh src s hK hds n _ hlim hs hI
  simp [call, h1]

end Cbadc.Estimator
