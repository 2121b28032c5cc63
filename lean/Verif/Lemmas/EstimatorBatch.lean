import Verif.Lemmas.EstimatorIIR

/-! Helper lemmas for the batch estimator. -/

namespace Cbadc.Estimator
open Matrix Cbadc.Spec Cbadc.Streams

variable {K : Type*} [CommRing K] {N M L : ℕ}

theorem batchLookahead_eq (c : Coeffs K N M L) (K3 : ℕ) (cs : ℕ → Fin M → K) (x : ℤ → Fin M → K) (o : ℤ)
    (hcs : ∀ k < K3, cs k = x (o + k)) (i : ℕ) (hi : i ≤ K3) :
    batchLookahead c K3 cs 0 i = bwdSum c.Ab c.Bb x (o + K3 - i) i := by
  induction i with
  | zero => simp [batchLookahead, bwdSum]
  | succ i ih =>
    rw [batchLookahead, ih (by omega), bwdSum_succ, hcs _ (by omega)]
    congr 2
    · congr 1; push_cast; ring
    · congr 1
      push_cast [Nat.cast_sub (show i ≤ K3 - 1 by omega), Nat.cast_sub (show 1 ≤ K3 by omega)]
      ring

/-- The forward loop fills rows `1 .. K1 - 1`, keeps the others and ends with the next start value. -/
theorem batchForward_eq (c : Coeffs K N M L) (K1 : ℕ) (cs : ℕ → Fin M → K) (x : ℤ → Fin M → K) (o n0 : ℕ)
    (mean : ℕ → Fin N → K) (hcs : ∀ k < K1, cs k = x (o + k))
    (h0 : mean 0 = fwdSum c.Af c.Bf x o n0) (i : ℕ) (hi : i ≤ K1) :
    (∀ k, (k < K1 ∧ k ≤ i) → (batchForward c K1 cs mean i).1 k = fwdSum c.Af c.Bf x ((o + k : ℕ)) (n0 + k)) ∧
    (∀ k, K1 ≤ k → (batchForward c K1 cs mean i).1 k = mean k) ∧
    (i = K1 → 0 < K1 → (batchForward c K1 cs mean i).2 = fwdSum c.Af c.Bf x ((o + K1 : ℕ)) (n0 + K1)) := by
  induction i with
  | zero =>
    refine ⟨?_, ?_, ?_⟩
    · intro k hk
      obtain rfl : k = 0 := by omega
      simp [batchForward, h0]
    · intro k hk
      simp [batchForward]
    · intro h1 h2; omega
  | succ i ih =>
    obtain ⟨h1, h2, -⟩ := ih (by omega)
    have htemp : c.Af *ᵥ (batchForward c K1 cs mean i).1 i + c.Bf *ᵥ cs i =
        fwdSum c.Af c.Bf x ((o + (i + 1) : ℕ)) (n0 + (i + 1)) := by
      rw [h1 i (by omega), hcs i (by omega)]
      have : ((o + (i + 1) : ℕ) : ℤ) = ((o + i : ℕ) : ℤ) + 1 := by push_cast; ring
      rw [this, show n0 + (i + 1) = (n0 + i) + 1 by omega, fwdSum_succ]
      push_cast
      rfl
    simp only [batchForward]
    by_cases hlt : i + 1 < K1
    · rw [if_pos hlt]
      refine ⟨?_, ?_, ?_⟩
      · intro k hk
        simp only
        rw [Function.update_apply]
        by_cases hki : k = i + 1
        · rw [if_pos hki, htemp, hki]
        · rw [if_neg hki, h1 k (by omega)]
      · intro k hk
        simp only
        rw [Function.update_apply, if_neg (by omega), h2 k hk]
      · intro h; omega
    · rw [if_neg hlt]
      refine ⟨?_, ?_, ?_⟩
      · intro k hk
        exact h1 k (by omega)
      · intro k hk
        exact h2 k hk
      · intro h _
        simp only
        rw [htemp, h]

/-- The backward loop computes the estimates from the forward means. -/
theorem batchBackward_eq (c : Coeffs K N M L) (K1 K2 : ℕ) (cs : ℕ → Fin M → K) (x : ℤ → Fin M → K) (o n0 : ℕ)
    (mean : ℕ → Fin N → K) (est : ℕ → Fin L → K) (hcs : ∀ k < K1, cs k = x (o + k))
    (hf : ∀ k < K1, mean k = fwdSum c.Af c.Bf x ((o + k : ℕ)) (n0 + k))
    (hb : mean K1 = bwdSum c.Ab c.Bb x ((o + K1 : ℕ)) K2) (i : ℕ) (hi : i ≤ K1) :
    (∀ k, k < K1 - i → (batchBackward c K1 cs mean est i).1 k = mean k) ∧
    (batchBackward c K1 cs mean est i).1 (K1 - i) = bwdSum c.Ab c.Bb x ((o + (K1 - i) : ℕ)) (K2 + i) ∧
    (∀ k, K1 - i ≤ k → k < K1 → (batchBackward c K1 cs mean est i).2 k =
      future c.WT c.Ab c.Bb x ((o + k : ℕ)) (K2 + (K1 - k)) -
        past c.WT c.Af c.Bf x ((o + k : ℕ)) (n0 + k)) := by
  induction i with
  | zero =>
    refine ⟨?_, ?_, ?_⟩
    · intro k hk; rfl
    · simpa [batchBackward] using hb
    · intro k h1 h2; omega
  | succ i ih =>
    obtain ⟨h1, h2, h3⟩ := ih (by omega)
    have e1 : K1 - 1 - i + 1 = K1 - i := by omega
    have e2 : K1 - 1 - i = K1 - (i + 1) := by omega
    have htemp : c.Ab *ᵥ (batchBackward c K1 cs mean est i).1 (K1 - 1 - i + 1) + c.Bb *ᵥ cs (K1 - 1 - i) =
        bwdSum c.Ab c.Bb x ((o + (K1 - (i + 1)) : ℕ)) (K2 + (i + 1)) := by
      rw [e1, h2, e2, hcs _ (by omega), show K2 + (i + 1) = (K2 + i) + 1 by omega, bwdSum_succ]
      have : ((o + (K1 - i) : ℕ) : ℤ) = ((o + (K1 - (i + 1)) : ℕ) : ℤ) + 1 := by omega
      rw [this]
      push_cast
      rfl
    simp only [batchBackward]
    rw [htemp, e2]
    refine ⟨?_, ?_, ?_⟩
    · intro k hk
      rw [Function.update_apply, if_neg (by omega), h1 k (by omega)]
    · simp
    · intro k hk1 hk2
      rw [Function.update_apply]
      by_cases hk : k = K1 - (i + 1)
      · rw [if_pos hk, h1 _ (by omega), hf _ (by omega), Matrix.mulVec_sub, mulVec_bwdSum, mulVec_fwdSum, hk]
        congr 2; omega
      · rw [if_neg hk, h3 k (by omega) hk2]

/-- state between batches -/
structure BatchInv (f : Batch K N M L) (s : ℕ → Fin M → K) (b : ℕ) (st : BatchState K N M L) : Prop where
  inBuffer : st.inBuffer = if b = 0 then 0 else f.K2
  cs : ∀ k < st.inBuffer, st.cs k = Spec.ext s ((b * f.K1 + k : ℕ))
  calls : st.calls = b * f.K1 + st.inBuffer
  mean0 : st.mean 0 = fwdSum f.c.Af f.c.Bf (Spec.ext s) ((b * f.K1 : ℕ)) (b * f.K1)
  meanK1 : st.mean f.K1 = 0

theorem batch_fill_ok (f : Batch K N M L) (src : ℕ → Res (Fin M → K)) (s : ℕ → Fin M → K) (o d : ℕ) :
    ∀ (fuel : ℕ) (st : BatchState K N M L), d < fuel → st.inBuffer + (d + 1) = f.K1 + f.K2 →
      st.calls = o + st.inBuffer →
      (∀ k < st.inBuffer, st.cs k = Spec.ext s ((o + k : ℕ))) →
      (∀ j < o + (f.K1 + f.K2), src j = .ok (s j)) →
      ∃ cs, (∀ k < f.K1 + f.K2, cs k = Spec.ext s ((o + k : ℕ))) ∧
        f.fill src fuel st = (.ok (),
          { st with cs := cs, inBuffer := f.K1 + f.K2, calls := o + (f.K1 + f.K2) }) := by
  induction d with
  | zero =>
    intro fuel st hf hb hc hcs hs
    obtain ⟨fuel, rfl⟩ : ∃ k, fuel = k + 1 := ⟨fuel - 1, by omega⟩
    refine ⟨Function.update st.cs st.inBuffer (valued (s (o + st.inBuffer))), ?_, ?_⟩
    · intro k hk
      rw [Function.update_apply]
      by_cases h : k = st.inBuffer
      · rw [if_pos h, ext_of_nonneg, h]
      · rw [if_neg h, hcs k (by omega)]
    · have e : o + st.inBuffer + 1 = o + (f.K1 + f.K2) := by omega
      have e' : st.inBuffer + 1 = f.K1 + f.K2 := by omega
      have hne : ¬ st.inBuffer = f.K1 + f.K2 := by omega
      simp only [Batch.fill, hc, hs (o + st.inBuffer) (by omega), Batch.input, if_neg hne]
      rw [if_pos (by simp; omega)]
      simp only [e, e']
  | succ d ih =>
    intro fuel st hf hb hc hcs hs
    obtain ⟨fuel, rfl⟩ : ∃ k, fuel = k + 1 := ⟨fuel - 1, by omega⟩
    have hne : ¬ st.inBuffer = f.K1 + f.K2 := by omega
    obtain ⟨cs, h1, h2⟩ := ih fuel
      { st with cs := Function.update st.cs st.inBuffer (valued (s (o + st.inBuffer))),
                inBuffer := st.inBuffer + 1, calls := o + st.inBuffer + 1 }
      (by omega) (by simp only; omega) (by simp only; omega)
      (by
        intro k hk
        simp only at hk ⊢
        rw [Function.update_apply]
        by_cases h : k = st.inBuffer
        · rw [if_pos h, ext_of_nonneg, h]
        · rw [if_neg h, hcs k (by omega)]) hs
    refine ⟨cs, h1, ?_⟩
    simp only [Batch.fill, hc, hs (o + st.inBuffer) (by omega), Batch.input, if_neg hne]
    rw [if_neg (by simp; omega)]
    exact h2

/-- the output of the batch estimator for sample `n` -/
def batchOut (f : Batch K N M L) (s : ℕ → Fin M → K) (b p : ℕ) : Fin L → K :=
  future f.c.WT f.c.Ab f.c.Bb (Spec.ext s) ((b * f.K1 + p : ℕ)) (f.K2 + (f.K1 - p)) -
    past f.c.WT f.c.Af f.c.Bf (Spec.ext s) ((b * f.K1 + p : ℕ)) (b * f.K1 + p)

theorem batch_compute_ok (f : Batch K N M L) (s : ℕ → Fin M → K) (b : ℕ) (st : BatchState K N M L)
    (hK : 0 < f.K1) (hin : st.inBuffer = f.K1 + f.K2)
    (hcs : ∀ k < f.K1 + f.K2, st.cs k = Spec.ext s ((b * f.K1 + k : ℕ)))
    (hcalls : st.calls = b * f.K1 + (f.K1 + f.K2))
    (h0 : st.mean 0 = fwdSum f.c.Af f.c.Bf (Spec.ext s) ((b * f.K1 : ℕ)) (b * f.K1))
    (hK1 : st.mean f.K1 = 0) :
    ∃ st', f.computeBatch st = .ok st' ∧ BatchInv f s (b + 1) st' ∧
      (∀ p < f.K1, st'.estimate p = batchOut f s b p) ∧
      st'.pointer = st.pointer ∧ st'.stop = st.stop ∧ st'.iteration = st.iteration := by
  have hmul : (b + 1) * f.K1 = b * f.K1 + f.K1 := by ring
  have hcs' : ∀ k < f.K1, st.cs k = Spec.ext s (((b * f.K1 : ℕ) : ℤ) + k) := by
    intro k hk
    rw [hcs k (by omega)]; push_cast; rfl
  have hcs'' : ∀ k < f.K1 + f.K2, st.cs k = Spec.ext s (((b * f.K1 : ℕ) : ℤ) + k) := by
    intro k hk
    rw [hcs k (by omega)]; push_cast; rfl
  have hla := batchLookahead_eq f.c (f.K1 + f.K2) st.cs (Spec.ext s) ((b * f.K1 : ℕ)) hcs'' f.K2 (by omega)
  set mean1 := Function.update st.mean f.K1
    (batchLookahead f.c (f.K1 + f.K2) st.cs (st.mean f.K1) f.K2) with hm1
  have hm10 : mean1 0 = fwdSum f.c.Af f.c.Bf (Spec.ext s) ((b * f.K1 : ℕ)) (b * f.K1) := by
    rw [hm1, Function.update_apply, if_neg (by omega), h0]
  have hm1K : mean1 f.K1 = bwdSum f.c.Ab f.c.Bb (Spec.ext s) ((b * f.K1 + f.K1 : ℕ)) f.K2 := by
    rw [hm1, Function.update_self, hK1, hla]
    congr 1
    push_cast; ring
  obtain ⟨hf1, hf2, hf3⟩ := batchForward_eq f.c f.K1 st.cs (Spec.ext s) (b * f.K1) (b * f.K1) mean1 hcs' hm10
    f.K1 le_rfl
  obtain ⟨hb1, hb2, hb3⟩ := batchBackward_eq f.c f.K1 f.K2 st.cs (Spec.ext s) (b * f.K1) (b * f.K1)
    (batchForward f.c f.K1 st.cs mean1 f.K1).1 st.estimate hcs' (fun k hk => hf1 k ⟨hk, by omega⟩)
    (by rw [hf2 _ le_rfl, hm1K]) f.K1 le_rfl
  have hcb : f.computeBatch st = .ok { st with
      mean := Function.update (Function.update
        (batchBackward f.c f.K1 st.cs (batchForward f.c f.K1 st.cs mean1 f.K1).1 st.estimate f.K1).1 0
          (batchForward f.c f.K1 st.cs mean1 f.K1).2) f.K1 0,
      estimate := (batchBackward f.c f.K1 st.cs
        (batchForward f.c f.K1 st.cs mean1 f.K1).1 st.estimate f.K1).2,
      cs := roll (f.K1 + f.K2) f.K1 st.cs, inBuffer := st.inBuffer - f.K1 } := by
    unfold Batch.computeBatch
    simp only
    rw [if_neg (by omega)]
  refine ⟨_, hcb, ⟨?_, ?_, ?_, ?_, ?_⟩, ?_, rfl, rfl, rfl⟩
  · rw [if_neg (by omega)]; simp only; omega
  · intro k hk
    simp only at hk ⊢
    have hk : k < f.K2 := by omega
    rw [roll, Nat.mod_eq_of_lt (by omega), hcs _ (by omega)]
    congr 1
    push_cast; ring
  · simp only; omega
  · simp only
    rw [Function.update_apply, if_neg (by omega), Function.update_self, hf3 rfl hK, hmul]
  · simp only
    rw [Function.update_self]
  · intro p hp
    simp only
    rw [hb3 p (by omega) hp]
    rfl

/-- state while batch `b` is being handed out, `p` outputs already delivered -/
structure BatchOutInv (f : Batch K N M L) (s : ℕ → Fin M → K) (b p : ℕ) (st : BatchState K N M L) : Prop where
  inv : BatchInv f s (b + 1) st
  est : ∀ q < f.K1, st.estimate q = batchOut f s b q
  pointer : st.pointer = p
  stop : st.stop = false
  iteration : st.iteration = b * (f.K1 + 1) + 1 + p

/-- one delivery out of a computed batch -/
theorem batch_deliver (f : Batch K N M L) (src : ℕ → Res (Fin M → K)) (s : ℕ → Fin M → K)
    (b p fuel : ℕ) (st : BatchState K N M L) (hp : p < f.K1) (hI : BatchOutInv f s b p st)
    (hlim : b * (f.K1 + 1) + 1 + p ≤ f.limit) :
    ∃ st', f.nextFuel src (fuel + 1) st = (.ok (batchOut f s b p), st') ∧ BatchOutInv f s b (p + 1) st' := by
  refine ⟨{ st with iteration := st.iteration + 1, pointer := st.pointer + 1 }, ?_, ?_⟩
  · simp only [Batch.nextFuel]
    rw [if_neg (by rw [hI.iteration]; omega), if_pos (by rw [hI.pointer]; exact hp), hI.pointer, hI.est p hp]
  · refine ⟨⟨hI.inv.inBuffer, hI.inv.cs, hI.inv.calls, hI.inv.mean0, hI.inv.meanK1⟩, hI.est, ?_, hI.stop, ?_⟩
    · simp only; rw [hI.pointer]
    · simp only; rw [hI.iteration]; omega

/-- the first delivery of batch `b` -/
theorem batch_first (f : Batch K N M L) (src : ℕ → Res (Fin M → K)) (s : ℕ → Fin M → K)
    (b : ℕ) (st : BatchState K N M L) (hK : 0 < f.K1) (hI : BatchInv f s b st)
    (hpt : st.pointer = f.K1) (hstop : st.stop = false) (hit : st.iteration = b * (f.K1 + 1))
    (hlim : b * (f.K1 + 1) + 1 ≤ f.limit)
    (hs : ∀ j < b * f.K1 + (f.K1 + f.K2), src j = .ok (s j)) :
    ∃ st', f.next src st = (.ok (batchOut f s b 0), st') ∧ BatchOutInv f s b 1 st' := by
  have hin : st.inBuffer < f.K1 + f.K2 := by
    rw [hI.inBuffer]; split_ifs <;> omega
  obtain ⟨cs, hc1, hc2⟩ := batch_fill_ok f src s (b * f.K1) (f.K1 + f.K2 - st.inBuffer - 1)
    (f.K1 + f.K2 + 1) { st with iteration := st.iteration + 1 } (by omega) (by simp only; omega)
    hI.calls hI.cs hs
  obtain ⟨st3, h1, h2, h3, h4, h5, h6⟩ := batch_compute_ok f s b
    { st with iteration := st.iteration + 1, cs := cs, inBuffer := f.K1 + f.K2,
              calls := b * f.K1 + (f.K1 + f.K2) } hK rfl hc1 rfl hI.mean0 hI.meanK1
  have hO : BatchOutInv f s b 0 { st3 with pointer := st3.pointer - f.K1 } := by
    refine ⟨⟨h2.inBuffer, h2.cs, h2.calls, h2.mean0, h2.meanK1⟩, h3, ?_, ?_, ?_⟩
    · simp only; rw [h4]; simp only; omega
    · simp only; rw [h5]; exact hstop
    · simp only; rw [h6]; simp only; omega
  obtain ⟨st', h7, h8⟩ := batch_deliver f src s b 0 0 _ hK hO (by omega)
  refine ⟨st', ?_, h8⟩
  simp only [Batch.next, Batch.nextFuel]
  rw [if_neg (by omega), if_neg (by omega), hstop]
  simp only [Bool.false_eq_true, if_false]
  simp only [hstop] at hc2
  rw [hc2]
  simp only
  simp only [hstop] at h1
  rw [h1]
  simpa only [Batch.nextFuel] using h7

theorem batchOutInv_last (f : Batch K N M L) (s : ℕ → Fin M → K) (b : ℕ) (st : BatchState K N M L)
    (hI : BatchOutInv f s b f.K1 st) :
    BatchInv f s (b + 1) st ∧ st.pointer = f.K1 ∧ st.stop = false ∧
      st.iteration = (b + 1) * (f.K1 + 1) := by
  refine ⟨hI.inv, hI.pointer, hI.stop, ?_⟩
  rw [hI.iteration]; ring

/-- state before call `n`: either at the start of a batch or inside one -/
def BatchAt (f : Batch K N M L) (s : ℕ → Fin M → K) (n : ℕ) (st : BatchState K N M L) : Prop :=
  (n % f.K1 = 0 ∧ BatchInv f s (n / f.K1) st ∧ st.pointer = f.K1 ∧ st.stop = false ∧
    st.iteration = n / f.K1 * (f.K1 + 1)) ∨
  (n % f.K1 ≠ 0 ∧ BatchOutInv f s (n / f.K1) (n % f.K1) st)

theorem batchAt_zero (f : Batch K N M L) (s : ℕ → Fin M → K) :
    BatchAt f s 0 f.init := by
  left
  refine ⟨by simp, ⟨?_, ?_, ?_, ?_, ?_⟩, rfl, rfl, ?_⟩
  · simp [Batch.init]
  · intro k hk; simp [Batch.init] at hk
  · simp [Batch.init]
  · simp [Batch.init, fwdSum]
  · simp [Batch.init]
  · simp [Batch.init]

theorem batch_step (f : Batch K N M L) (src : ℕ → Res (Fin M → K)) (s : ℕ → Fin M → K)
    (n : ℕ) (st : BatchState K N M L) (hK : 0 < f.K1) (hI : BatchAt f s n st)
    (hlim : n + n / f.K1 + 1 ≤ f.limit)
    (hs : ∀ j < n / f.K1 * f.K1 + (f.K1 + f.K2), src j = .ok (s j)) :
    ∃ st', f.next src st = (.ok (batchOut f s (n / f.K1) (n % f.K1)), st') ∧ BatchAt f s (n + 1) st' := by
  have hdm := Nat.div_add_mod n f.K1
  have hmlt := Nat.mod_lt n hK
  have hexp : n / f.K1 * (f.K1 + 1) = f.K1 * (n / f.K1) + n / f.K1 := by ring
  -- position of n + 1
  have key : ∀ st', BatchOutInv f s (n / f.K1) (n % f.K1 + 1) st' → BatchAt f s (n + 1) st' := by
    intro st' h
    by_cases hlast : n % f.K1 + 1 = f.K1
    · rw [hlast] at h
      have e : n + 1 = (n / f.K1 + 1) * f.K1 := by
        have : (n / f.K1 + 1) * f.K1 = f.K1 * (n / f.K1) + f.K1 := by ring
        omega
      have e1 : (n + 1) % f.K1 = 0 := by rw [e]; simp
      have e2 : (n + 1) / f.K1 = n / f.K1 + 1 := by rw [e, Nat.mul_div_cancel _ hK]
      left
      rw [e2]
      exact ⟨e1, batchOutInv_last f s _ st' h⟩
    · have e : n + 1 = n % f.K1 + 1 + f.K1 * (n / f.K1) := by omega
      have e1 : (n + 1) % f.K1 = n % f.K1 + 1 := by
        rw [e, Nat.add_mul_mod_self_left]
        exact Nat.mod_eq_of_lt (by omega)
      have e2 : (n + 1) / f.K1 = n / f.K1 := by
        rw [e, Nat.add_mul_div_left _ _ hK, Nat.div_eq_of_lt (show n % f.K1 + 1 < f.K1 by omega), zero_add]
      right
      rw [e1, e2]
      exact ⟨by omega, h⟩
  rcases hI with ⟨h0, h1, h2, h3, h4⟩ | ⟨h0, h1⟩
  · obtain ⟨st', h5, h6⟩ := batch_first f src s (n / f.K1) st hK h1 h2 h3 h4 (by omega) hs
    rw [h0]
    refine ⟨st', h5, key st' ?_⟩
    rw [h0]; exact h6
  · obtain ⟨st', h5, h6⟩ := batch_deliver f src s (n / f.K1) (n % f.K1) 1 st hmlt h1 (by omega)
    exact ⟨st', h5, key st' h6⟩

theorem batch_stateAfter (f : Batch K N M L) (src : ℕ → Res (Fin M → K)) (s : ℕ → Fin M → K)
    (hK : 0 < f.K1) (n : ℕ)
    (hlim : ∀ m < n, m + m / f.K1 + 1 ≤ f.limit)
    (hs : ∀ m < n, ∀ j < m / f.K1 * f.K1 + (f.K1 + f.K2), src j = .ok (s j)) :
    BatchAt f s n (stateAfter (f.next src) f.init n) := by
  induction n with
  | zero => exact batchAt_zero f s
  | succ n ih =>
    have hI := ih (fun m hm => hlim m (by omega)) (fun m hm => hs m (by omega))
    obtain ⟨st', h1, h2⟩ := batch_step f src s n _ hK hI (hlim n (by omega)) (hs n (by omega))
    simp only [stateAfter, h1]
    exact h2

theorem batch_call (f : Batch K N M L) (src : ℕ → Res (Fin M → K)) (s : ℕ → Fin M → K)
    (hK : 0 < f.K1) (n : ℕ)
    (hlim : n + n / f.K1 + 1 ≤ f.limit)
    (hs : ∀ j < n / f.K1 * f.K1 + (f.K1 + f.K2), src j = .ok (s j)) :
    call (f.next src) f.init n = .ok (batchOut f s (n / f.K1) (n % f.K1)) := by
  have mono : ∀ m ≤ n, m / f.K1 ≤ n / f.K1 := fun m hm => Nat.div_le_div_right hm
  have hI := batch_stateAfter f src s hK n
    (fun m hm => by have := mono m (by omega); omega)
    (fun m hm j hj => hs j (by
      have := Nat.mul_le_mul_right f.K1 (mono m (by omega))
      omega))
  obtain ⟨st', h1, -⟩ := batch_step f src s n _ hK hI hlim hs
  simp [call, h1]

end Cbadc.Estimator
