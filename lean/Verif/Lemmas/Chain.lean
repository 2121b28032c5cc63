import Verif.Lemmas.Stack

/-! # Lemmas about the trajectories of chained systems -/

namespace Cbadc.Analog
open Finset Spec

variable {K : Type*} [Field K]

/-- output of the part of the chain built so far -/
def accOut (L : ℕ) (a : ChainAcc K) (x u : ℕ → K) (k : ℕ) : K :=
  (∑ c ∈ range a.n, a.CT k c * x c) + ∑ c ∈ range L, a.D k c * u c

/-- right hand side of row `r` of the part of the chain built so far, without controls -/
def accRow (L : ℕ) (a : ChainAcc K) (x u : ℕ → K) (r : ℕ) : K :=
  (∑ c ∈ range a.n, a.A r c * x c) + ∑ c ∈ range L, a.B r c * u c

theorem chainLoop_cons {N L : ℕ} {a a' : ChainAcc K} {g : Sys K} {l : List (Sys K)}
    (h : chainLoop N L a (g :: l) = .ok a') : ∃ b, chainStep N L a g = .ok b ∧ chainLoop N L b l = .ok a' := by
  rw [chainLoop] at h
  cases hs : chainStep N L a g with
  | error e => rw [hs] at h; cases h
  | ok b => rw [hs] at h; exact ⟨b, rfl, h⟩

/-- the control matrices of a chain are those of a stack -/
theorem loop_controls (N L : ℕ) (l : List (Sys K)) (a a' : ChainAcc K) (h : chainLoop N L a l = .ok a') :
    a'.Gamma = stackBlocks Sys.N Sys.M (fun g => optBlock g.Gamma) a.n a.m a.Gamma l ∧
    a'.GammaT = stackBlocks Sys.Mt Sys.N (fun g => optBlock g.GammaT) a.mt a.n a.GammaT l ∧
    a'.At = stackBlocks Sys.Mt Sys.M (fun g => g.At) a.mt a.m a.At l := by
  induction l generalizing a with
  | nil => cases h; exact ⟨rfl, rfl, rfl⟩
  | cons g l ih =>
    obtain ⟨b, hb, hl⟩ := chainLoop_cons h
    obtain ⟨h1, h2, h3⟩ := ih b hl
    unfold chainStep at hb
    split_ifs at hb
    cases hb
    exact ⟨h1, h2, h3⟩

/-- finished rows are not touched any more -/
theorem loop_old (N L : ℕ) (l : List (Sys K)) (a a' : ChainAcc K) (hN : a.n + total Sys.N l ≤ N) (hI : Inv N a.n a)
    (h : chainLoop N L a l = .ok a') (x u : ℕ → K) (r : ℕ) (hr : r < a.n) : accRow L a' x u r = accRow L a x u r := by
  induction l generalizing a with
  | nil => cases h; rfl
  | cons g l ih =>
    obtain ⟨b, hb, hl⟩ := chainLoop_cons h
    rw [total_cons] at hN
    have hI' : Inv N (a.n + g.N) a := ⟨hI.hA, fun j c hc => hI.hC j c (by omega)⟩
    obtain ⟨-, hn, -⟩ := chainStep_ok hb
    rw [ih b (by omega) (step_inv hb hI') hl (by omega)]
    unfold accRow
    rw [step_old hb (by omega) hI' x r hr, step_B_old hb u r hr]

theorem step_out {N L : ℕ} {a b : ChainAcc K} {g : Sys K} (h : chainStep N L a g = .ok b) (x u : ℕ → K) (j : ℕ)
    (hj : j < g.Nt) : accOut L b x u j = outp g (shift a.n x) (accOut L a x u) j := by
  unfold accOut outp
  rw [step_C h x j hj, step_D h u j]
  simp_rw [mul_add]
  rw [Finset.sum_add_distrib]
  ring

theorem feed_congr (l : List (Sys K)) (g : Sys K) (x v w : ℕ → K) (h : ∀ f ∈ (l ++ [g]).head?, ∀ k < f.L, v k = w k)
    (k : ℕ) (hk : k < g.L) : feed l x v k = feed l x w k := by
  cases l with
  | nil => exact h g rfl k hk
  | cons f l =>
    have e : outp f x v = outp f x w := by
      funext r
      unfold outp
      congr 1
      apply Finset.sum_congr rfl
      intro c hc
      rw [h f rfl c (mem_range.mp hc)]
    rw [feed, feed, e]

/-- rows of one part of a chain -/
theorem loop_rows (N L : ℕ) (l1 : List (Sys K)) (g : Sys K) (l2 : List (Sys K)) (a a' : ChainAcc K) (k : ℕ)
    (hk : ∀ f ∈ (l1 ++ [g]).head?, k ≤ a.n + f.N)
    (hN : a.n + total Sys.N (l1 ++ g :: l2) ≤ N) (hI : Inv N k a) (h : chainLoop N L a (l1 ++ g :: l2) = .ok a')
    (x u : ℕ → K) (i : ℕ) (hi : i < g.N) :
    accRow L a' x u (a.n + total Sys.N l1 + i) =
      (∑ c ∈ range g.N, g.A i c * shift (a.n + total Sys.N l1) x c) +
        ∑ c ∈ range g.L, g.B i c * feed l1 (shift a.n x) (accOut L a x u) c := by
  induction l1 generalizing a k with
  | nil =>
    rw [List.nil_append] at h hN
    obtain ⟨b, hb, hl⟩ := chainLoop_cons h
    rw [total_cons] at hN
    have hk' := hk g rfl
    have hI' : Inv N (a.n + g.N) a := ⟨hI.hA, fun j c hc => hI.hC j c (le_trans hk' hc)⟩
    obtain ⟨-, hn, -⟩ := chainStep_ok hb
    have e0 : total Sys.N ([] : List (Sys K)) = 0 := rfl
    rw [e0, add_zero, loop_old N L l2 b a' (by omega) (step_inv hb hI') hl x u _ (by omega)]
    unfold accRow
    rw [step_new hb (by omega) x i hi, step_B_new hb u i hi]
    unfold feed accOut
    simp_rw [mul_add]
    rw [Finset.sum_add_distrib]
    ring
  | cons f l1 ih =>
    rw [List.cons_append] at h hN
    obtain ⟨b, hb, hl⟩ := chainLoop_cons h
    rw [total_cons] at hN ⊢
    have hk' := hk f rfl
    have hI' : Inv N (a.n + f.N) a := ⟨hI.hA, fun j c hc => hI.hC j c (le_trans hk' hc)⟩
    obtain ⟨-, hn, hp, -⟩ := chainStep_ok hb
    have key := ih b b.n (fun _ _ => by omega) (by omega) (step_inv hb hI') hl
    rw [hn, add_assoc a.n f.N] at key
    rw [key, feed]
    congr 1
    apply Finset.sum_congr rfl
    intro c hc
    have es : shift f.N (shift a.n x) = shift (a.n + f.N) x := by
      funext j
      unfold shift
      congr 1
      omega
    rw [es]
    congr 1
    apply feed_congr l1 g _ _ _ _ c (mem_range.mp hc)
    intro q hq j hj
    apply step_out hb
    have hqL : q.L = b.p := by
      cases l1 with
      | nil =>
        cases hq
        obtain ⟨b2, hb2, -⟩ := chainLoop_cons hl
        exact (chainStep_ok hb2).1
      | cons f2 l1 =>
        cases hq
        obtain ⟨b2, hb2, -⟩ := chainLoop_cons hl
        exact (chainStep_ok hb2).1
    omega

/-- output behind the whole chain -/
theorem loop_out (N L : ℕ) (l : List (Sys K)) (a a' : ChainAcc K) (h : chainLoop N L a l = .ok a') (x u : ℕ → K)
    (j : ℕ) (hj : j < a'.p) : accOut L a' x u j = feed l (shift a.n x) (accOut L a x u) j := by
  induction l generalizing a with
  | nil => cases h; rfl
  | cons g l ih =>
    obtain ⟨b, hb, hl⟩ := chainLoop_cons h
    obtain ⟨-, hn, hp, -⟩ := chainStep_ok hb
    have es : shift g.N (shift a.n x) = shift b.n x := by
      funext j
      unfold shift
      congr 1
      omega
    rw [ih b hl, feed, es]
    cases l with
    | nil =>
      cases hl
      exact step_out hb x u j (by omega)
    | cons g2 l2 =>
      obtain ⟨b2, hb2, -⟩ := chainLoop_cons hl
      have hL := (chainStep_ok hb2).1
      have e : outp g2 (shift b.n x) (accOut L b x u) = outp g2 (shift b.n x) (outp g (shift a.n x) (accOut L a x u)) := by
        funext r
        unfold outp
        congr 1
        apply Finset.sum_congr rfl
        intro c hc
        rw [mem_range] at hc
        have := step_out hb x u c (by omega)
        unfold outp at this
        rw [this]
      rw [feed, feed, e]

end Cbadc.Analog
