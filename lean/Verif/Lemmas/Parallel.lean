import Verif.Lemmas.EstimatorBatch
import Verif.Model.Parallel
import Mathlib.Analysis.Complex.Basic

/-! Helper lemmas: the parallel estimator simulates the batch estimator. -/

namespace Cbadc.Estimator
open Matrix Cbadc.Spec Cbadc.Streams

variable {N M L : ℕ}

section rec
variable {K : Type*} [CommRing K]

/-- forward recursion of the batch estimator -/
def fwdRec (c : Coeffs K N M L) (cs : ℕ → Fin M → K) (m0 : Fin N → K) : ℕ → Fin N → K
  | 0 => m0
  | k + 1 => c.Af *ᵥ fwdRec c cs m0 k + c.Bf *ᵥ cs k

theorem batchForward_rec (c : Coeffs K N M L) (K1 : ℕ) (cs : ℕ → Fin M → K)
    (mean : ℕ → Fin N → K) (i : ℕ) (hi : i ≤ K1) :
    (∀ k, (k < K1 ∧ k ≤ i) → (batchForward c K1 cs mean i).1 k = fwdRec c cs (mean 0) k) ∧
    (∀ k, K1 ≤ k → (batchForward c K1 cs mean i).1 k = mean k) ∧
    (i = K1 → 0 < K1 → (batchForward c K1 cs mean i).2 = fwdRec c cs (mean 0) K1) := by
  induction i with
  | zero =>
    refine ⟨?_, ?_, ?_⟩
    · intro k hk
      obtain rfl : k = 0 := by omega
      simp [batchForward, fwdRec]
    · intro k hk
      simp [batchForward]
    · intro h1 h2; omega
  | succ i ih =>
    obtain ⟨h1, h2, -⟩ := ih (by omega)
    have htemp : c.Af *ᵥ (batchForward c K1 cs mean i).1 i + c.Bf *ᵥ cs i =
        fwdRec c cs (mean 0) (i + 1) := by
      rw [h1 i (by omega), fwdRec]
    simp only [batchForward]
    by_cases hlt : i + 1 < K1
    · rw [if_pos hlt]
      refine ⟨?_, ?_, ?_⟩
      · intro k hk
        simp only
        rw [Function.update_apply]
        by_cases hki : k = i + 1
        · rw [if_pos hki, htemp, hki]
        · rw [if_neg hki, h1 k (by omega)]
      · intro k hk
        simp only
        rw [Function.update_apply, if_neg (by omega), h2 k hk]
      · intro h; omega
    · rw [if_neg hlt]
      refine ⟨fun k hk => h1 k (by omega), fun k hk => h2 k hk, ?_⟩
      intro h _
      simp only
      rw [htemp, h]

theorem batchBackward_rec (c : Coeffs K N M L) (K1 K2 : ℕ) (cs : ℕ → Fin M → K)
    (mean : ℕ → Fin N → K) (est : ℕ → Fin L → K) (m0 : Fin N → K)
    (hf : ∀ k < K1, mean k = fwdRec c cs m0 k)
    (hb : mean K1 = batchLookahead c (K1 + K2) cs 0 K2) (i : ℕ) (hi : i ≤ K1) :
    (∀ k, k < K1 - i → (batchBackward c K1 cs mean est i).1 k = mean k) ∧
    (batchBackward c K1 cs mean est i).1 (K1 - i) = batchLookahead c (K1 + K2) cs 0 (K2 + i) ∧
    (∀ k, K1 - i ≤ k → k < K1 → (batchBackward c K1 cs mean est i).2 k =
      c.WT *ᵥ (batchLookahead c (K1 + K2) cs 0 (K1 + K2 - k) - fwdRec c cs m0 k)) := by
  induction i with
  | zero =>
    refine ⟨fun k hk => rfl, by simpa [batchBackward] using hb, ?_⟩
    intro k h1 h2; omega
  | succ i ih =>
    obtain ⟨h1, h2, h3⟩ := ih (by omega)
    have e1 : K1 - 1 - i + 1 = K1 - i := by omega
    have e2 : K1 - 1 - i = K1 - (i + 1) := by omega
    have htemp : c.Ab *ᵥ (batchBackward c K1 cs mean est i).1 (K1 - 1 - i + 1) + c.Bb *ᵥ cs (K1 - 1 - i) =
        batchLookahead c (K1 + K2) cs 0 (K2 + (i + 1)) := by
      rw [e1, h2, show K2 + (i + 1) = (K2 + i) + 1 by omega, batchLookahead]
      congr 3
      omega
    simp only [batchBackward]
    rw [htemp, e2]
    refine ⟨?_, by simp, ?_⟩
    · intro k hk
      rw [Function.update_apply, if_neg (by omega), h1 k (by omega)]
    · intro k hk1 hk2
      rw [Function.update_apply]
      by_cases hk : k = K1 - (i + 1)
      · rw [if_pos hk, h1 _ (by omega), hf _ (by omega), hk]
        congr 3; omega
      · rw [if_neg hk, h3 k (by omega) hk2]

/-- `computeBatch` in recursive form -/
theorem computeBatch_rec (f : Batch K N M L) (st : BatchState K N M L) (hK : 0 < f.K1)
    (hin : st.inBuffer = f.K1 + f.K2) (hK1 : st.mean f.K1 = 0) :
    ∃ st', f.computeBatch st = .ok st' ∧
      st'.mean 0 = fwdRec f.c st.cs (st.mean 0) f.K1 ∧ st'.mean f.K1 = 0 ∧
      (∀ k < f.K1, st'.estimate k =
        f.c.WT *ᵥ (batchLookahead f.c (f.K1 + f.K2) st.cs 0 (f.K1 + f.K2 - k) - fwdRec f.c st.cs (st.mean 0) k)) ∧
      st'.cs = roll (f.K1 + f.K2) f.K1 st.cs ∧ st'.inBuffer = f.K2 ∧
      st'.pointer = st.pointer ∧ st'.stop = st.stop ∧ st'.iteration = st.iteration ∧
      st'.calls = st.calls := by
  set mean1 := Function.update st.mean f.K1
    (batchLookahead f.c (f.K1 + f.K2) st.cs (st.mean f.K1) f.K2) with hm1
  have hm10 : mean1 0 = st.mean 0 := by
    rw [hm1, Function.update_apply, if_neg (by omega)]
  have hm1K : mean1 f.K1 = batchLookahead f.c (f.K1 + f.K2) st.cs 0 f.K2 := by
    rw [hm1, Function.update_self, hK1]
  obtain ⟨hf1, hf2, hf3⟩ := batchForward_rec f.c f.K1 st.cs mean1 f.K1 le_rfl
  rw [hm10] at hf1 hf3
  obtain ⟨hb1, hb2, hb3⟩ := batchBackward_rec f.c f.K1 f.K2 st.cs
    (batchForward f.c f.K1 st.cs mean1 f.K1).1 st.estimate (st.mean 0) (fun k hk => hf1 k ⟨hk, by omega⟩)
    (by rw [hf2 _ le_rfl, hm1K]) f.K1 le_rfl
  have hcb : f.computeBatch st = .ok { st with
      mean := Function.update (Function.update
        (batchBackward f.c f.K1 st.cs (batchForward f.c f.K1 st.cs mean1 f.K1).1 st.estimate f.K1).1 0
          (batchForward f.c f.K1 st.cs mean1 f.K1).2) f.K1 0,
      estimate := (batchBackward f.c f.K1 st.cs
        (batchForward f.c f.K1 st.cs mean1 f.K1).1 st.estimate f.K1).2,
      cs := roll (f.K1 + f.K2) f.K1 st.cs, inBuffer := st.inBuffer - f.K1 } := by
    unfold Batch.computeBatch
    simp only
    rw [if_neg (by omega)]
  refine ⟨_, hcb, ?_, ?_, ?_, rfl, ?_, rfl, rfl, rfl, rfl⟩
  · simp only
    rw [Function.update_apply, if_neg (by omega), Function.update_self, hf3 rfl hK]
  · simp only
    rw [Function.update_self]
  · intro k hk
    simp only
    rw [hb3 k (by omega) hk]
  · simp only; omega

end rec

/-- complexified vector -/
noncomputable def cv {n : ℕ} (v : Fin n → ℝ) : Fin n → ℂ := fun i => (v i : ℂ)

theorem toC_mulVec {n m : ℕ} (A : Matrix (Fin n) (Fin m) ℝ) (v : Fin m → ℝ) :
    toC A *ᵥ cv v = cv (A *ᵥ v) := by
  ext i
  simp only [toC, cv, Matrix.mulVec, dotProduct, Matrix.map_apply]
  rw [Complex.ofReal_sum]
  push_cast
  rfl

theorem cv_add {n : ℕ} (v w : Fin n → ℝ) : cv (v + w) = cv v + cv w := by
  ext i; simp [cv]

def Binary (s : Fin M → ℝ) : Prop := ∀ m, s m = 0 ∨ s m = 1

theorem parCtrl_eq (b : Fin M → ℂ) (s : Fin M → ℝ) (hs : Binary s) :
    parCtrl b s = ∑ m, b m * cv (valued s) m := by
  unfold parCtrl
  apply Finset.sum_congr rfl
  intro m _
  rcases hs m with h | h
  · rw [if_neg (by simp [h])]
    simp [cv, valued, h]
  · rw [if_pos (by simp [h])]
    simp [cv, valued, h]
    ring

theorem Q_step (e : Eig N) (A : Matrix (Fin N) (Fin N) ℝ) (he : e.Valid A) (B : Matrix (Fin N) (Fin M) ℝ)
    (v : Fin N → ℂ) (w : Fin N → ℝ) (x : Fin M → ℝ) (hv : e.Q *ᵥ v = cv w) :
    e.Q *ᵥ (fun n => e.a n * v n + ∑ m, (e.Qinv * toC B) n m * cv x m) = cv (A *ᵥ w + B *ᵥ x) := by
  have h1 : (fun n => e.a n * v n + ∑ m, (e.Qinv * toC B) n m * cv x m) =
      Matrix.diagonal e.a *ᵥ v + (e.Qinv * toC B) *ᵥ cv x := by
    ext n
    simp only [Pi.add_apply, Matrix.mulVec_diagonal]
    rfl
  rw [h1, Matrix.mulVec_add, Matrix.mulVec_mulVec, Matrix.mulVec_mulVec, ← Matrix.mul_assoc, he.2,
    Matrix.one_mul, ← he.1, ← Matrix.mulVec_mulVec, hv, toC_mulVec, toC_mulVec, cv_add]

theorem parForward_sim (c : Coeffs ℝ N M L) (e : Eig N) (he : e.Valid c.Af)
    (cs : ℕ → Fin M → ℝ) (bcs : ℕ → Fin M → ℝ) (m0 : Fin N → ℂ) (w0 : Fin N → ℝ) (h0 : e.Q *ᵥ m0 = cv w0)
    (k : ℕ) (hb : ∀ j < k, Binary (cs j)) (hcs : ∀ j < k, bcs j = valued (cs j)) :
    e.Q *ᵥ (fun n => parForward (e.a n) ((e.Qinv * toC c.Bf) n) cs (m0 n) k) = cv (fwdRec c bcs w0 k) := by
  induction k with
  | zero => simpa [parForward, fwdRec] using h0
  | succ k ih =>
    have := ih (fun j hj => hb j (by omega)) (fun j hj => hcs j (by omega))
    simp only [parForward, fwdRec]
    rw [← Q_step e c.Af he c.Bf _ _ _ this]
    congr 1
    ext n
    rw [parCtrl_eq _ _ (hb k (by omega)), hcs k (by omega)]

theorem parBackward_sim (c : Coeffs ℝ N M L) (e : Eig N) (he : e.Valid c.Ab) (K3 : ℕ)
    (cs : ℕ → Fin M → ℝ) (bcs : ℕ → Fin M → ℝ)
    (i : ℕ) (hi : i ≤ K3) (hb : ∀ j < K3, Binary (cs j)) (hcs : ∀ j < K3, bcs j = valued (cs j)) :
    e.Q *ᵥ (fun n => parBackward (e.a n) ((e.Qinv * toC c.Bb) n) K3 cs i) =
      cv (batchLookahead c K3 bcs 0 i) := by
  induction i with
  | zero =>
    simp only [parBackward, batchLookahead]
    ext n
    simp [cv, Matrix.mulVec, dotProduct]
  | succ i ih =>
    have := ih (by omega)
    simp only [parBackward, batchLookahead]
    rw [← Q_step e c.Ab he c.Bb _ _ _ this]
    congr 1
    ext n
    rw [parCtrl_eq _ _ (hb _ (by omega)), hcs _ (by omega)]

theorem re_w (WT : Matrix (Fin L) (Fin N) ℝ) (Q : Matrix (Fin N) (Fin N) ℂ) (v : Fin N → ℂ) (w : Fin N → ℝ)
    (h : Q *ᵥ v = cv w) (l : Fin L) : ∑ n, ((toC WT * Q) l n * v n).re = (WT *ᵥ w) l := by
  rw [← Complex.re_sum]
  have : ∑ n, (toC WT * Q) l n * v n = ((toC WT * Q) *ᵥ v) l := rfl
  rw [this, ← Matrix.mulVec_mulVec, h, toC_mulVec]
  simp [cv]

/-- relation between a parallel-estimator state and a batch-estimator state -/
structure ParRel (f : Batch ℝ N M L) (ef : Eig N) (p : ParState N M L) (b : BatchState ℝ N M L) : Prop where
  inBuffer : p.inBuffer = b.inBuffer
  le : b.inBuffer ≤ f.K1 + f.K2
  cs : ∀ k < b.inBuffer, b.cs k = valued (p.cs k)
  bin : ∀ k < b.inBuffer, Binary (p.cs k)
  est : ∀ k < f.K1, p.estimate k = b.estimate k
  mean : ef.Q *ᵥ p.mean = cv (b.mean 0)
  meanK1 : b.mean f.K1 = 0
  pointer : p.pointer = b.pointer
  stop : p.stop = b.stop
  iteration : p.iteration = b.iteration
  calls : p.calls = b.calls

/-- the parallel estimator belonging to a batch estimator -/
noncomputable def parOf (f : Batch ℝ N M L) (ef eb : Eig N) : Parallel N M L :=
  { K1 := f.K1, K2 := f.K2, limit := f.limit, fa := ef.a, ba := eb.a
    fb := ef.Qinv * toC f.c.Bf, bb := eb.Qinv * toC f.c.Bb
    fw := -(toC f.c.WT * ef.Q), bw := toC f.c.WT * eb.Q }

theorem par_compute (f : Batch ℝ N M L) (ef eb : Eig N) (hf : ef.Valid f.c.Af) (hb : eb.Valid f.c.Ab)
    (hK : 0 < f.K1) (p : ParState N M L) (b : BatchState ℝ N M L) (hR : ParRel f ef p b) :
    (∃ e, (parOf f ef eb).computeBatch p = .error e ∧ f.computeBatch b = .error e) ∨
    ∃ p' b', (parOf f ef eb).computeBatch p = .ok p' ∧ f.computeBatch b = .ok b' ∧ ParRel f ef p' b' := by
  by_cases hin : b.inBuffer < f.K1 + f.K2
  · left
    refine ⟨.exception, ?_, ?_⟩
    · unfold Parallel.computeBatch
      exact if_pos (by rw [hR.inBuffer]; exact hin)
    · unfold Batch.computeBatch
      simp only
      rw [if_pos hin]
  · right
    have hle := hR.le
    have hin' : b.inBuffer = f.K1 + f.K2 := by omega
    obtain ⟨b', h1, h2, h3, h4, h5, h6, h7, h8, h9, h10⟩ := computeBatch_rec f b hK hin' hR.meanK1
    have hcs : ∀ j < f.K1 + f.K2, b.cs j = valued (p.cs j) := fun j hj => hR.cs j (by omega)
    have hbin : ∀ j < f.K1 + f.K2, Binary (p.cs j) := fun j hj => hR.bin j (by omega)
    have hcb : (parOf f ef eb).computeBatch p = .ok { p with
        estimate := fun k l => ∑ n,
          (((-(toC f.c.WT * ef.Q)) l n * parForward (ef.a n) ((ef.Qinv * toC f.c.Bf) n) p.cs (p.mean n) k).re +
            ((toC f.c.WT * eb.Q) l n *
              parBackward (eb.a n) ((eb.Qinv * toC f.c.Bb) n) (f.K1 + f.K2) p.cs (f.K1 + f.K2 - k)).re)
        mean := fun n => parForward (ef.a n) ((ef.Qinv * toC f.c.Bf) n) p.cs (p.mean n) f.K1
        cs := roll (f.K1 + f.K2) f.K1 p.cs
        inBuffer := p.inBuffer - f.K1 } := by
      unfold Parallel.computeBatch
      exact if_neg (by rw [hR.inBuffer]; exact hin)
    refine ⟨_, b', hcb, h1, ?_⟩
    refine ⟨?_, ?_, ?_, ?_, ?_, ?_, h3, ?_, ?_, ?_, ?_⟩
    · simp only; rw [h6, hR.inBuffer]; omega
    · rw [h6]; omega
    · intro k hk
      rw [h6] at hk
      rw [h5]
      simp only [roll]
      rw [Nat.mod_eq_of_lt (by omega), hcs _ (by omega)]
    · intro k hk
      rw [h6] at hk
      simp only [roll]
      rw [Nat.mod_eq_of_lt (by omega)]
      exact hbin _ (by omega)
    · intro k hk
      rw [h4 k hk]
      ext l
      simp only
      have e1 := re_w f.c.WT ef.Q _ _ (parForward_sim f.c ef hf p.cs b.cs p.mean (b.mean 0) hR.mean k
        (fun j hj => hbin j (by omega)) (fun j hj => hcs j (by omega))) l
      have e2 := re_w f.c.WT eb.Q _ _ (parBackward_sim f.c eb hb (f.K1 + f.K2) p.cs b.cs
        (f.K1 + f.K2 - k) (by omega) hbin hcs) l
      rw [Finset.sum_add_distrib, e2, Matrix.mulVec_sub, Pi.sub_apply, ← e1, sub_eq_neg_add,
        ← Finset.sum_neg_distrib]
      simp
    · simp only
      rw [h2]
      exact parForward_sim f.c ef hf p.cs b.cs p.mean (b.mean 0) hR.mean f.K1
        (fun j hj => hbin j (by omega)) (fun j hj => hcs j (by omega))
    · simp only; rw [h7, hR.pointer]
    · simp only; rw [h8, hR.stop]
    · simp only; rw [h9, hR.iteration]
    · simp only; rw [h10, hR.calls]

theorem par_input (f : Batch ℝ N M L) (ef eb : Eig N) (p : ParState N M L) (b : BatchState ℝ N M L)
    (s : Fin M → ℝ) (hs : Binary s) (hR : ParRel f ef p b) :
    (∃ e, (parOf f ef eb).input p s = .error e ∧ f.input b s = .error e) ∨
    ∃ full p' b', (parOf f ef eb).input p s = .ok (full, p') ∧ f.input b s = .ok (full, b') ∧
      ParRel f ef p' b' := by
  by_cases hin : b.inBuffer = f.K1 + f.K2
  · left
    refine ⟨.exception, ?_, ?_⟩
    · unfold Parallel.input
      exact if_pos (by rw [hR.inBuffer]; exact hin)
    · unfold Batch.input
      simp only
      rw [if_pos hin]
  · right
    have hle := hR.le
    have hp : (parOf f ef eb).input p s = .ok (decide (f.K1 + f.K2 - 1 < b.inBuffer + 1),
        { p with cs := Function.update p.cs b.inBuffer s, inBuffer := b.inBuffer + 1 }) := by
      unfold Parallel.input
      rw [hR.inBuffer]
      exact if_neg hin
    have hbb : f.input b s = .ok (decide (f.K1 + f.K2 - 1 < b.inBuffer + 1),
        { b with cs := Function.update b.cs b.inBuffer (valued s), inBuffer := b.inBuffer + 1 }) := by
      unfold Batch.input
      exact if_neg hin
    refine ⟨_, _, _, hp, hbb, ?_⟩
    refine ⟨rfl, ?_, ?_, ?_, hR.est, hR.mean, hR.meanK1, hR.pointer, hR.stop, hR.iteration, hR.calls⟩
    · simp only; omega
    · intro k hk
      simp only at hk ⊢
      rw [Function.update_apply, Function.update_apply]
      by_cases h : k = b.inBuffer
      · rw [if_pos h, if_pos h]
      · rw [if_neg h, if_neg h, hR.cs k (by omega)]
    · intro k hk
      simp only at hk ⊢
      rw [Function.update_apply]
      by_cases h : k = b.inBuffer
      · rw [if_pos h]; exact hs
      · rw [if_neg h]; exact hR.bin k (by omega)

theorem par_fill (f : Batch ℝ N M L) (ef eb : Eig N) (src : ℕ → Res (Fin M → ℝ))
    (hsrc : ∀ n s, src n = .ok s → Binary s) (fuel : ℕ) :
    ∀ (p : ParState N M L) (b : BatchState ℝ N M L), ParRel f ef p b →
      ((parOf f ef eb).fill src fuel p).1 = (f.fill src fuel b).1 ∧
      ParRel f ef ((parOf f ef eb).fill src fuel p).2 (f.fill src fuel b).2 := by
  induction fuel with
  | zero => intro p b hR; exact ⟨rfl, hR⟩
  | succ fuel ih =>
    intro p b hR
    have hR' : ParRel f ef { p with calls := p.calls + 1 } { b with calls := b.calls + 1 } :=
      ⟨hR.inBuffer, hR.le, hR.cs, hR.bin, hR.est, hR.mean, hR.meanK1, hR.pointer, hR.stop, hR.iteration,
        by simp only; rw [hR.calls]⟩
    have hR'' : ParRel f ef { p with calls := p.calls + 1, stop := true }
        { b with calls := b.calls + 1, stop := true } :=
      ⟨hR.inBuffer, hR.le, hR.cs, hR.bin, hR.est, hR.mean, hR.meanK1, hR.pointer, rfl, hR.iteration,
        by simp only; rw [hR.calls]⟩
    simp only [Parallel.fill, Batch.fill]
    rw [hR.calls] at hR' hR'' ⊢
    cases hs : src b.calls with
    | ok s =>
      rcases par_input f ef eb _ _ s (hsrc _ _ hs) hR' with ⟨e, h1, h2⟩ | ⟨full, p', b', h1, h2, h3⟩
      · simp only [h1, h2]; exact ⟨trivial, hR'⟩
      · simp only [h1, h2]
        cases full with
        | true => exact ⟨rfl, h3⟩
        | false => simpa using ih p' b' h3
    | error e =>
      have hz : Binary (0 : Fin M → ℝ) := fun m => Or.inl rfl
      by_cases he : e = .runtimeError
      · subst he
        rcases par_input f ef eb _ _ 0 hz hR'' with ⟨e, h1, h2⟩ | ⟨full, p', b', h1, h2, h3⟩
        · simp only [h1, h2]; exact ⟨trivial, hR''⟩
        · simp only [h1, h2]
          cases full with
          | true => exact ⟨rfl, h3⟩
          | false => simpa using ih p' b' h3
      · cases e <;> first
          | exact absurd rfl he
          | exact ⟨rfl, hR'⟩

theorem par_nextFuel (f : Batch ℝ N M L) (ef eb : Eig N) (hf : ef.Valid f.c.Af) (hb : eb.Valid f.c.Ab)
    (hK : 0 < f.K1) (src : ℕ → Res (Fin M → ℝ))
    (hsrc : ∀ n s, src n = .ok s → Binary s) (fuel : ℕ) :
    ∀ (p : ParState N M L) (b : BatchState ℝ N M L), ParRel f ef p b →
      ((parOf f ef eb).nextFuel src fuel p).1 = (f.nextFuel src fuel b).1 ∧
      ParRel f ef ((parOf f ef eb).nextFuel src fuel p).2 (f.nextFuel src fuel b).2 := by
  induction fuel with
  | zero => intro p b hR; exact ⟨rfl, hR⟩
  | succ fuel ih =>
    intro p b hR
    simp only [Parallel.nextFuel, Batch.nextFuel]
    rw [hR.iteration, hR.pointer, hR.stop]
    have elim : (parOf f ef eb).limit = f.limit := rfl
    have eK1 : (parOf f ef eb).K1 = f.K1 := rfl
    have eK2 : (parOf f ef eb).K2 = f.K2 := rfl
    rw [elim, eK1, eK2]
    by_cases h1 : f.limit < b.iteration
    · rw [if_pos h1, if_pos h1]; exact ⟨rfl, hR⟩
    rw [if_neg h1, if_neg h1]
    by_cases h2 : b.pointer < f.K1
    · rw [if_pos h2, if_pos h2]
      refine ⟨?_, ⟨hR.inBuffer, hR.le, hR.cs, hR.bin, hR.est, hR.mean, hR.meanK1, rfl, rfl, rfl, hR.calls⟩⟩
      simp only
      rw [hR.est _ h2]
    rw [if_neg h2, if_neg h2]
    have hR1 : ParRel f ef { p with iteration := b.iteration + 1 } { b with iteration := b.iteration + 1 } :=
      ⟨hR.inBuffer, hR.le, hR.cs, hR.bin, hR.est, hR.mean, hR.meanK1, hR.pointer, hR.stop, rfl, hR.calls⟩
    rw [hR.pointer, hR.stop] at hR1
    by_cases h3 : b.stop = true
    · rw [if_pos h3, if_pos h3]; exact ⟨rfl, hR1⟩
    rw [if_neg h3, if_neg h3]
    obtain ⟨hf1, hf2⟩ := par_fill f ef eb src hsrc (f.K1 + f.K2 + 1) _ _ hR1
    revert hf1 hf2
    generalize (parOf f ef eb).fill src (f.K1 + f.K2 + 1) _ = rp
    generalize f.fill src (f.K1 + f.K2 + 1) _ = rb
    obtain ⟨rp1, p2⟩ := rp
    obtain ⟨rb1, b2⟩ := rb
    intro hf1 hf2
    simp only at hf1 hf2
    subst hf1
    cases rp1 with
    | error e => exact ⟨rfl, hf2⟩
    | ok u =>
      simp only
      rcases par_compute f ef eb hf hb hK p2 b2 hf2 with ⟨e, h4, h5⟩ | ⟨p', b', h4, h5, h6⟩
      · rw [h4, h5]; exact ⟨rfl, hf2⟩
      · rw [h4, h5]
        simp only
        apply ih
        exact ⟨h6.inBuffer, h6.le, h6.cs, h6.bin, h6.est, h6.mean, h6.meanK1, by simp only; rw [h6.pointer],
          h6.stop, h6.iteration, h6.calls⟩

theorem par_init (f : Batch ℝ N M L) (ef eb : Eig N) : ParRel f ef (parOf f ef eb).init f.init := by
  refine ⟨rfl, by simp [Batch.init], ?_, ?_, ?_, ?_, rfl, rfl, rfl, rfl, rfl⟩
  · intro k hk; simp [Batch.init] at hk
  · intro k hk; simp [Batch.init] at hk
  · intro k _; rfl
  · ext n
    simp [Parallel.init, Batch.init, cv, Matrix.mulVec, dotProduct]

theorem par_stateAfter (f : Batch ℝ N M L) (ef eb : Eig N) (hf : ef.Valid f.c.Af) (hb : eb.Valid f.c.Ab)
    (hK : 0 < f.K1) (src : ℕ → Res (Fin M → ℝ)) (hsrc : ∀ n s, src n = .ok s → Binary s) (n : ℕ) :
    ParRel f ef (stateAfter ((parOf f ef eb).next src) (parOf f ef eb).init n)
      (stateAfter (f.next src) f.init n) := by
  induction n with
  | zero => exact par_init f ef eb
  | succ n ih =>
    simp only [stateAfter]
    exact (par_nextFuel f ef eb hf hb hK src hsrc 2 _ _ ih).2

theorem par_call (f : Batch ℝ N M L) (ef eb : Eig N) (hf : ef.Valid f.c.Af) (hb : eb.Valid f.c.Ab)
    (hK : 0 < f.K1) (src : ℕ → Res (Fin M → ℝ)) (hsrc : ∀ n s, src n = .ok s → Binary s) (n : ℕ) :
    call ((parOf f ef eb).next src) (parOf f ef eb).init n = call (f.next src) f.init n := by
  unfold call
  exact (par_nextFuel f ef eb hf hb hK src hsrc 2 _ _
    (par_stateAfter f ef eb hf hb hK src hsrc n)).1

end Cbadc.Estimator
