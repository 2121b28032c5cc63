import Verif.Lemmas.NuvStream

/-! Helper lemmas for the NUV estimator: the batches. -/

namespace Cbadc.Nuv

open Matrix Cbadc.Estimator Cbadc.Streams

variable {N P M L : ℕ}

/-! ### What a batch depends on -/

/-- The data that a batch depends on agree. -/
structure Agree (K : ℕ) (a b : State N P M L) : Prop where
  mean : a.mean 0 = b.mean 0
  cov : a.cov 0 = b.cov 0
  s1 : ∀ k < K, a.s1 k = b.s1 k
  s2 : ∀ k < K, a.s2 k = b.s2 k
  cs : ∀ k < K, a.cs k = b.cs k

/-- So do the results. -/
structure AgreeR (K : ℕ) (a b : State N P M L) : Prop extends Agree K a b where
  means : ∀ k < K, a.mean k = b.mean k
  covs : ∀ k < K, a.cov k = b.cov k
  xi : ∀ k < K, a.xi k = b.xi k

theorem forward_congr (f : Est N P M L) {a b : State N P M L} {K : ℕ} (h : Agree K a b)
    (hv : ∀ k < K, a.yV k = b.yV k) (hm : ∀ k < K, a.ym k = b.ym k) :
    ∀ k < K, f.forward a k = f.forward b k := by
  intro k
  induction k with
  | zero => intro _; rw [Est.forward, Est.forward, h.mean, h.cov]
  | succ k ih =>
    intro hk
    rw [Est.forward, Est.forward, ih (by omega), hv k (by omega), hm k (by omega), h.cs k (by omega)]

theorem backward_congr (f : Est N P M L) (hPN : P = N) {a b : State N P M L} (h : Agree f.K3 a b) (hK : 0 < f.K3)
    (hv : ∀ k < f.K3, a.yV k = b.yV k) (hm : ∀ k < f.K3, a.ym k = b.ym k) :
    ∀ j, f.backward hPN a j = f.backward hPN b j := by
  intro j
  induction j with
  | zero =>
    rw [Est.backward, Est.backward, forward_congr f h hv hm _ (by omega), hv _ (by omega), hm _ (by omega)]
  | succ j ih =>
    rw [Est.backward, Est.backward, forward_congr f h hv hm _ (by omega), hv _ (by omega), hm _ (by omega), ih]

theorem mbf_stats_congr (f : Est N P M L) (hPN : P = N) {a b : State N P M L} (hK : 0 < f.K3) (h : Agree f.K3 a b) :
    ∃ r r', f.mbf (f.stats a) = .ok r ∧ f.mbf (f.stats b) = .ok r' ∧ AgreeR f.K3 r r' := by
  unfold Est.mbf
  rw [dif_pos hPN, dif_pos hPN]
  have h' : Agree f.K3 (f.stats a) (f.stats b) := ⟨h.mean, h.cov, h.s1, h.s2, h.cs⟩
  have hv : ∀ k < f.K3, (f.stats a).yV k = (f.stats b).yV k := by
    intro k hk
    simp only [Est.stats, h.s1 k hk, h.s2 k hk]
  have hm : ∀ k < f.K3, (f.stats a).ym k = (f.stats b).ym k := by
    intro k hk
    simp only [Est.stats, h.s1 k hk, h.s2 k hk]
  have hf := forward_congr f h' hv hm
  refine ⟨_, _, rfl, rfl, ⟨⟨?_, ?_, h.s1, h.s2, h.cs⟩, ?_, ?_, ?_⟩⟩
  · exact h.mean
  · exact h.cov
  · intro k hk; show (f.forward _ k).1 = _; rw [hf k hk]
  · intro k hk; show (f.forward _ k).2 = _; rw [hf k hk]
  · intro k _; exact backward_congr f hPN h' hK hv hm _

theorem bounds_congr (f : Est N P M L) {a b : State N P M L} (h : AgreeR f.K3 a b) :
    Agree f.K3 (f.bounds a) (f.bounds b) := by
  refine ⟨h.mean, h.cov, ?_, ?_, h.cs⟩ <;>
  · intro k hk
    simp only [Est.bounds, h.means k hk, h.covs k hk, h.xi k hk]

theorem solve_congr (f : Est N P M L) (hPN : P = N) (hK : 0 < f.K3) (n : ℕ) {a b : State N P M L}
    (h : Agree f.K3 a b) : ∃ r r', f.solve n a = .ok r ∧ f.solve n b = .ok r' ∧ AgreeR f.K3 r r' := by
  induction n with
  | zero => exact mbf_stats_congr f hPN hK h
  | succ n ih =>
    obtain ⟨r, r', h1, h2, h3⟩ := ih
    rw [Est.solve, Est.solve, h1, h2]
    exact mbf_stats_congr f hPN hK (bounds_congr f h3)

/-- What a batch leaves alone. -/
structure Frame (a b : State N P M L) : Prop where
  cs : b.cs = a.cs
  count : b.count = a.count
  pointer : b.pointer = a.pointer
  stop : b.stop = a.stop
  calls : b.calls = a.calls

theorem solve_frame (f : Est N P M L) : ∀ (n : ℕ) (a : State N P M L) {r : State N P M L}, f.solve n a = .ok r →
    Frame a r := by
  have hm : ∀ (a r : State N P M L), f.mbf a = .ok r → Frame a r := by
    intro a r h
    unfold Est.mbf at h
    by_cases hp : P = N
    · rw [dif_pos hp] at h
      cases h
      exact ⟨rfl, rfl, rfl, rfl, rfl⟩
    · rw [dif_neg hp] at h
      cases h
  intro n
  induction n with
  | zero =>
    intro a r h
    obtain ⟨h1, h2, h3, h4, h5⟩ := hm _ _ h
    exact ⟨h1, h2, h3, h4, h5⟩
  | succ n ih =>
    intro a r h
    rw [Est.solve] at h
    rcases h1 : f.solve n a with e | r1
    · rw [h1] at h; cases h
    · rw [h1] at h
      obtain ⟨h1, h2, h3, h4, h5⟩ := ih a h1
      obtain ⟨h1', h2', h3', h4', h5'⟩ := hm _ _ h
      exact ⟨h1'.trans h1, h2'.trans h2, h3'.trans h3, h4'.trans h4, h5'.trans h5⟩

/-! ### The sequence of batches -/

/-- What is handed from one batch to the next. -/
structure Prior (N P : ℕ) where
  m : Fin N → ℝ
  V : Matrix (Fin N) (Fin N) ℝ
  s1 : Fin P → ℝ
  s2 : Fin P → ℝ

/-- A state from which a batch with the given prior and decisions is computed. -/
def base (p : Prior N P) (w : ℕ → Fin M → ℝ) : State N P M L where
  cs := w
  count := 0
  estimate := fun _ => 0
  mean := fun _ => p.m
  cov := fun _ => p.V
  ym := fun _ => 0
  yV := fun _ => 0
  xi := fun _ => 0
  s1 := fun k => if k = 0 then p.s1 else fun _ => 1
  s2 := fun k => if k = 0 then p.s2 else fun _ => 1
  pointer := 0
  stop := false
  calls := 0

/-- The result of `n` iterations for a batch. -/
noncomputable def solved (f : Est N P M L) (n : ℕ) (p : Prior N P) (w : ℕ → Fin M → ℝ) : State N P M L :=
  match f.solve n (base p w) with
  | .ok r => r
  | .error _ => base p w

/-- The estimates of a batch. -/
noncomputable def out (f : Est N P M L) (p : Prior N P) (w : ℕ → Fin M → ℝ) (j : ℕ) : Fin L → ℝ :=
  -(f.covU • (f.Bᵀ *ᵥ (solved f f.iters p w).xi j))

/-- The prior that a batch leaves behind. -/
noncomputable def after (f : Est N P M L) (p : Prior N P) (w : ℕ → Fin M → ℝ) : Prior N P :=
  let r := solved f f.iters p w
  ⟨r.mean (f.K1 - 1), r.cov (f.K1 - 1), r.s1 (f.K1 - 1), r.s2 (f.K1 - 1)⟩

/-- The decisions of batch `b`. -/
def window (f : Est N P M L) (src : ℕ → Res (Fin M → ℝ)) (b k : ℕ) : Fin M → ℝ :=
  valued (smp src ((b * f.K1 + k) / f.os))

/-- The prior of batch `b`. -/
noncomputable def prior (f : Est N P M L) (src : ℕ → Res (Fin M → ℝ)) : ℕ → Prior N P
  | 0 => ⟨0, (10 : ℝ) ^ 12 • 1, fun _ => 1, fun _ => 1⟩
  | b + 1 => after f (prior f src b) (window f src b)

/-- The number of decisions that have been read before batch `b`. -/
def before (f : Est N P M L) : ℕ → ℕ
  | 0 => 0
  | b + 1 => (b * f.K1 + f.K3) / f.os

/-- The state before batch `b`. -/
structure Inv (f : Est N P M L) (src : ℕ → Res (Fin M → ℝ)) (b : ℕ) (st : State N P M L) : Prop where
  pointer : st.pointer = f.K1
  count : st.count = if b = 0 then 0 else f.K2
  calls : st.calls = before f b
  stop : st.stop = (List.range (before f b)).any (dead src)
  cs : ∀ k < st.count, st.cs k = window f src b k
  mean : st.mean 0 = (prior f src b).m
  cov : st.cov 0 = (prior f src b).V
  s1 : st.s1 0 = (prior f src b).s1
  s2 : st.s2 0 = (prior f src b).s2

/-- What the constructor guarantees, and what the reading loop needs. -/
structure Fits (f : Est N P M L) : Prop where
  os : 0 < f.os
  K1 : 0 < f.K1
  d1 : f.os ∣ f.K1
  d2 : f.os ∣ f.K2

theorem inv_init (f : Est N P M L) (src : ℕ → Res (Fin M → ℝ)) : Inv f src 0 f.init := by
  refine ⟨rfl, rfl, rfl, rfl, ?_, rfl, ?_, rfl, rfl⟩
  · intro k hk
    exact absurd hk (Nat.not_lt_zero k)
  · simp [Est.init, prior]

/-- The state from which call `j` of a batch is answered. -/
def At (st : State N P M L) (j : ℕ) : State N P M L := { st with pointer := j }

theorem next_rest (f : Est N P M L) (src : ℕ → Res (Fin M → ℝ)) (st : State N P M L) (j : ℕ) (hj : j < f.K1) :
    f.next src (At st j) = (.ok (st.estimate j), At st (j + 1)) := by
  rw [Est.next, Est.nextFuel, if_pos (show (At st j).pointer < f.K1 from hj)]
  rfl

theorem any_range_add (p : ℕ → Bool) (a b : ℕ) : (List.range (a + b)).any p =
    ((List.range a).any p || (List.range b).any fun i => p (a + i)) := by
  rw [List.range_add, List.any_append, List.any_map]
  rfl

/-- The buffer has been filled for batch `b`. -/
def Filled (f : Est N P M L) (src : ℕ → Res (Fin M → ℝ)) (b : ℕ) (st : State N P M L) : Prop :=
  ∃ st2, f.fill src (f.K3 + 1) st = (.ok (), st2) ∧ st2.count = f.K3 ∧ st2.calls = before f (b + 1) ∧
    st2.stop = (List.range (before f (b + 1))).any (dead src) ∧ st2.pointer = f.K1 ∧
    (∀ k < f.K3, st2.cs k = window f src b k) ∧ st2.mean = st.mean ∧ st2.cov = st.cov ∧ st2.s1 = st.s1 ∧
    st2.s2 = st.s2

theorem reads_first (f : Est N P M L) (hos : 0 < f.os) (hK1 : 0 < f.K1) (h3 : f.os ∣ f.K3) (src : ℕ → Res (Fin M → ℝ))
    (st : State N P M L) (h : Inv f src 0 st) (hs : ∀ i < before f 1, Soft src i) : Filled f src 0 st := by
  obtain ⟨q, hq⟩ := h3
  have hbef : before f 1 = q := by
    rw [before, Nat.zero_mul, Nat.zero_add, hq, Nat.mul_div_cancel_left _ hos]
  have hc0 : st.count = 0 := by rw [h.count, if_pos rfl]
  have hl0 : st.calls = 0 := h.calls
  have hcount : st.count + q * f.os = f.K3 := by rw [hc0, hq]; ring
  have hK3 : 0 < f.K3 := by unfold Est.K3; omega
  have hq0 : 0 < q := by
    rcases Nat.eq_zero_or_pos q with h0 | h0
    · subst h0; omega
    · exact h0
  have hqf : q ≤ f.K3 + 1 := by
    have : q ≤ q * f.os := Nat.le_mul_of_pos_right q hos
    omega
  have hfill := fill_soft f src hos q (f.K3 + 1) st hq0 hqf hcount (fun i hi => hs _ (by omega))
  refine ⟨_, hfill, hcount, ?_, ?_, h.pointer, ?_, rfl, rfl, rfl, rfl⟩
  · show st.calls + q = _
    rw [hl0, hbef, Nat.zero_add]
  · show (st.stop || _) = _
    rw [h.stop, hl0]
    simp [before, hq, Nat.mul_div_cancel_left _ hos]
  · intro k hk
    show (if st.count ≤ k ∧ k < st.count + q * f.os then _ else st.cs k) = _
    rw [if_pos ⟨by omega, by omega⟩]
    unfold window
    rw [hc0, hl0]
    simp

theorem reads_of_inv (f : Est N P M L) (hf : Fits f) (src : ℕ → Res (Fin M → ℝ)) (b : ℕ) (st : State N P M L)
    (h : Inv f src b st) (hs : ∀ i < before f (b + 1), Soft src i) :
    Filled f src b st := by
  obtain ⟨a1, e1⟩ := hf.d1
  obtain ⟨a2, e2⟩ := hf.d2
  have hos := hf.os
  have hK1 := hf.K1
  have ha1 : 0 < a1 := by
    rcases Nat.eq_zero_or_pos a1 with h0 | h0
    · subst h0; omega
    · exact h0
  have hK3 : f.K3 = f.os * (a1 + a2) := by unfold Est.K3; rw [e1, e2]; ring
  have hbef : before f (b + 1) = b * a1 + (a1 + a2) := by
    rw [before, hK3, e1, show b * (f.os * a1) + f.os * (a1 + a2) = f.os * (b * a1 + (a1 + a2)) by ring,
      Nat.mul_div_cancel_left _ hos]
  obtain ⟨q, hq⟩ : ∃ q, q = if b = 0 then a1 + a2 else a1 := ⟨_, rfl⟩
  have hcalls : st.calls + q = before f (b + 1) := by
    rw [h.calls, hbef, hq]
    rcases b with _ | b
    · simp [before]
    · rw [if_neg (by omega), before, hK3, e1,
        show b * (f.os * a1) + f.os * (a1 + a2) = f.os * (b * a1 + (a1 + a2)) by ring, Nat.mul_div_cancel_left _ hos]
      ring
  have hcount : st.count + q * f.os = f.K3 := by
    rw [h.count, hK3, hq]
    by_cases hb : b = 0
    · rw [if_pos hb, if_pos hb]; ring
    · rw [if_neg hb, if_neg hb, e2]; ring
  have hq0 : 0 < q := by
    rw [hq]; split <;> omega
  have hqf : q ≤ f.K3 + 1 := by
    have : q ≤ q * f.os := Nat.le_mul_of_pos_right q hos
    omega
  have hfill := fill_soft f src hos q (f.K3 + 1) st hq0 hqf hcount (fun i hi => hs _ (by omega))
  refine ⟨_, hfill, hcount, hcalls, ?_, h.pointer, ?_, rfl, rfl, rfl, rfl⟩
  · show (st.stop || _) = _
    rw [h.stop, ← hcalls, any_range_add, h.calls]
  · intro k hk
    show (if st.count ≤ k ∧ k < st.count + q * f.os then _ else st.cs k) = _
    by_cases hk' : st.count ≤ k
    · rw [if_pos ⟨hk', by omega⟩]
      unfold window
      congr 2
      -- position in the stream
      have hpos : b * f.K1 + k = f.os * st.calls + (k - st.count) := by
        have hc : f.os * st.calls = b * f.K1 + st.count := by
          rw [h.calls, h.count]
          rcases b with _ | b
          · simp [before]
          · rw [if_neg (by omega), before, hK3, e1,
              show b * (f.os * a1) + f.os * (a1 + a2) = f.os * (b * a1 + (a1 + a2)) by ring,
              Nat.mul_div_cancel_left _ hos, e2]
            ring
        omega
      rw [hpos, Nat.mul_add_div hos]
    · rw [if_neg (by omega)]
      exact h.cs k (by omega)

theorem reset_agree (p : Prior N P) (w : ℕ → Fin M → ℝ) (st : State N P M L) (K : ℕ) (hm : st.mean 0 = p.m)
    (hV : st.cov 0 = p.V) (h1 : st.s1 0 = p.s1) (h2 : st.s2 0 = p.s2) (hw : ∀ k < K, st.cs k = w k) :
    Agree K (reset st) (base p w) := by
  refine ⟨hm, hV, ?_, ?_, hw⟩
  · intro k _
    simp only [reset, base, h1]
  · intro k _
    simp only [reset, base, h2]

/-- One batch: its estimates, and the state that it leaves behind. -/
theorem next_batch (f : Est N P M L) (hK1 : 0 < f.K1) (hPN : P = N) (src : ℕ → Res (Fin M → ℝ)) (b : ℕ)
    (st : State N P M L) (h : Inv f src b st) (hst : st.stop = false) (hs : Filled f src b st) :
    ∃ st', (f.next src st) = (.ok (st'.estimate 0), At st' 1) ∧
      (∀ j < f.K1, st'.estimate j = out f (prior f src b) (window f src b) j) ∧
      Inv f src (b + 1) (At st' f.K1) := by
  obtain ⟨st2, hfill, hcount, hcalls, hstop, hptr, hcs, hm, hV, h1, h2⟩ := hs
  have hK3 : 0 < f.K3 := by unfold Est.K3; omega
  have hag := reset_agree (prior f src b) (window f src b) st2 f.K3 (by rw [hm]; exact h.mean) (by rw [hV]; exact h.cov)
    (by rw [h1]; exact h.s1) (by rw [h2]; exact h.s2) hcs
  obtain ⟨r, r', hr, hr', hrr⟩ := solve_congr f hPN hK3 f.iters hag
  have hfr := solve_frame f f.iters _ hr
  have hsol : solved f f.iters (prior f src b) (window f src b) = r' := by
    unfold solved
    rw [hr']
  have hle : f.K1 ≤ f.K3 := by unfold Est.K3; omega
  obtain ⟨st3, hst3⟩ : ∃ st3, f.computeBatch (reset st2) = .ok st3 := by
    unfold Est.computeBatch
    rw [if_neg (by show ¬ st2.count < _; omega), hr]
    exact ⟨_, rfl⟩
  have hc := hst3
  unfold Est.computeBatch at hc
  rw [if_neg (by show ¬ st2.count < _; omega), hr] at hc
  dsimp only at hc
  have hc' := (Except.ok.inj hc).symm
  refine ⟨st3, ?_, ?_, ?_⟩
  · rw [Est.next, Est.nextFuel, if_neg (by rw [h.pointer]; omega), hst, if_neg (by simp), hfill]
    dsimp only
    rw [hst3]
    dsimp only
    have hp : st3.pointer - f.K1 = 0 := by
      rw [hc']
      show r.pointer - f.K1 = 0
      rw [hfr.pointer]
      show st2.pointer - f.K1 = 0
      omega
    rw [hp]
    rw [Est.nextFuel, if_pos hK1]
    rfl
  · intro j hj
    rw [hc']
    show (if j < f.K1 then -(f.covU • (f.Bᵀ *ᵥ r.xi j)) else _) = _
    rw [if_pos hj, out, hsol, hrr.xi j (by omega)]
  · have hprior : prior f src (b + 1) = ⟨r.mean (f.K1 - 1), r.cov (f.K1 - 1), r.s1 (f.K1 - 1), r.s2 (f.K1 - 1)⟩ := by
      rw [prior, after, hsol, hrr.means _ (by omega), hrr.covs _ (by omega), hrr.s1 _ (by omega), hrr.s2 _ (by omega)]
    refine ⟨rfl, ?_, ?_, ?_, ?_, ?_, ?_, ?_, ?_⟩
    · rw [if_neg (by omega), hc']
      show r.count - f.K1 = f.K2
      rw [hfr.count]
      show st2.count - f.K1 = f.K2
      rw [hcount]
      unfold Est.K3
      omega
    · rw [hc']
      show r.calls = _
      rw [hfr.calls]
      exact hcalls
    · rw [hc']
      show r.stop = _
      rw [hfr.stop]
      exact hstop
    · intro k hk
      rw [hc'] at hk ⊢
      have hk : k < r.count - f.K1 := hk
      have hk2 : k + f.K1 < f.K3 := by
        rw [hfr.count] at hk
        have : (reset st2).count = f.K3 := hcount
        omega
      show r.cs ((k + f.K1) % f.K3) = _
      rw [Nat.mod_eq_of_lt hk2, hfr.cs]
      show st2.cs (k + f.K1) = _
      rw [hcs _ hk2]
      unfold window
      rw [show b * f.K1 + (k + f.K1) = (b + 1) * f.K1 + k by ring]
    · rw [hc', hprior]
      simp [At, Est.estimates]
    · rw [hc', hprior]
      simp [At, Est.estimates]
    · rw [hc', hprior]
      simp [At, Est.estimates]
    · rw [hc', hprior]
      simp [At, Est.estimates]

/-- The states within a batch. -/
theorem stateAfter_batch (f : Est N P M L) (src : ℕ → Res (Fin M → ℝ)) (st st' : State N P M L)
    (h : f.next src st = (.ok (st'.estimate 0), At st' 1)) :
    ∀ j, 0 < j → j ≤ f.K1 → stateAfter (f.next src) st j = At st' j := by
  intro j
  induction j with
  | zero => intro h0; omega
  | succ j ih =>
    intro _ hj
    rw [stateAfter]
    rcases Nat.eq_zero_or_pos j with rfl | h0
    · rw [stateAfter, h]
    · rw [ih h0 (by omega), next_rest f src st' j (by omega)]

theorem call_batch (f : Est N P M L) (src : ℕ → Res (Fin M → ℝ)) (st st' : State N P M L)
    (h : f.next src st = (.ok (st'.estimate 0), At st' 1)) (j : ℕ) (hj : j < f.K1) :
    call (f.next src) st j = .ok (st'.estimate j) := by
  unfold call
  rcases Nat.eq_zero_or_pos j with rfl | h0
  · rw [stateAfter, h]
  · rw [stateAfter_batch f src st st' h j h0 (by omega), next_rest f src st' j hj]

theorem stateAfter_add {V S : Type*} (next : S → Res V × S) (s0 : S) (a b : ℕ) :
    stateAfter next s0 (a + b) = stateAfter next (stateAfter next s0 a) b := by
  induction b with
  | zero => rfl
  | succ b ih => rw [← add_assoc, stateAfter, ih, stateAfter]

/-- The state after `b` batches, as long as the stream has not ended before. -/
theorem inv_after (f : Est N P M L) (hf : Fits f) (hPN : P = N) (src : ℕ → Res (Fin M → ℝ)) : ∀ b,
    (∀ i < before f b, Soft src i) → (∀ i, b ≠ 0 → i < before f (b - 1) → ∃ s, src i = .ok s) →
    Inv f src b (stateAfter (f.next src) f.init (b * f.K1)) := by
  intro b
  induction b with
  | zero =>
    intro _ _
    rw [Nat.zero_mul]
    exact inv_init f src
  | succ b ih =>
    intro hs ho
    have ho : ∀ i < before f b, ∃ s, src i = .ok s := fun i hi => ho i (by omega) hi
    have hmono : ∀ c, before f c ≤ before f (c + 1) := by
      intro c
      rcases c with _ | c
      · exact Nat.zero_le _
      · exact Nat.div_le_div_right (by rw [Nat.succ_mul]; omega)
    have hI := ih (fun i hi => Or.inr (ho i hi)) (fun i hb hi => ho i (by
      obtain ⟨c, rfl⟩ : ∃ c, b = c + 1 := ⟨b - 1, by omega⟩
      exact lt_of_lt_of_le hi (hmono c)))
    have hstop : (stateAfter (f.next src) f.init (b * f.K1)).stop = false := by
      rw [hI.stop, List.any_eq_false]
      intro i hi
      obtain ⟨s, hsrc⟩ := ho i (List.mem_range.mp hi)
      simp [dead, hsrc]
    obtain ⟨st', h1, _, h3⟩ := next_batch f hf.K1 hPN src b _ hI hstop (reads_of_inv f hf src b _ hI hs)
    rw [Nat.succ_mul, stateAfter_add, stateAfter_batch f src _ st' h1 f.K1 hf.K1 le_rfl]
    exact h3

/-- The estimates of batch `b`, as long as the stream has not ended before. -/
theorem call_out (f : Est N P M L) (hf : Fits f) (hPN : P = N) (src : ℕ → Res (Fin M → ℝ)) (b : ℕ)
    (hs : ∀ i < before f (b + 1), Soft src i) (ho : ∀ i < before f b, ∃ s, src i = .ok s) (j : ℕ) (hj : j < f.K1) :
    call (f.next src) f.init (b * f.K1 + j) = .ok (out f (prior f src b) (window f src b) j) := by
  have hmono : ∀ c, before f c ≤ before f (c + 1) := by
    intro c
    rcases c with _ | c
    · exact Nat.zero_le _
    · exact Nat.div_le_div_right (by rw [Nat.succ_mul]; omega)
  have hI := inv_after f hf hPN src b (fun i hi => hs i (lt_of_lt_of_le hi (hmono b))) (fun i hb hi => ho i (by
    obtain ⟨c, rfl⟩ : ∃ c, b = c + 1 := ⟨b - 1, by omega⟩
    exact lt_of_lt_of_le hi (hmono c)))
  have hstop : (stateAfter (f.next src) f.init (b * f.K1)).stop = false := by
    rw [hI.stop, List.any_eq_false]
    intro i hi
    obtain ⟨s, hsrc⟩ := ho i (List.mem_range.mp hi)
    simp [dead, hsrc]
  obtain ⟨st', h1, h2, _⟩ := next_batch f hf.K1 hPN src b _ hI hstop (reads_of_inv f hf src b _ hI hs)
  have := call_batch f src _ st' h1 j hj
  rw [h2 j hj] at this
  rw [← this]
  unfold call
  rw [stateAfter_add]

end Cbadc.Nuv
