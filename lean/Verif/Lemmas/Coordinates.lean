import Verif.Spec.Coordinates
import Verif.Lemmas.Simulator

/-! # Lemmas: state coordinates (C151) -/

namespace Cbadc.Coordinates

open Matrix Finset Set Cbadc.Analog Cbadc.Control Cbadc.Simulate Cbadc.Estimator Cbadc.Streams

section arrays
variable {K : Type*} [Field K] {n : ℕ} {S R : ℕ → ℕ → K}

theorem toM_mul (a n c : ℕ) (X Y : ℕ → ℕ → K) : toM a c (mul n X Y) = toM a n X * toM n c Y := by
  ext i j
  show ∑ k ∈ range n, X i k * Y k j = ∑ k : Fin n, X i k * Y k j
  exact Finset.sum_range fun k => X i k * Y k j

theorem inverse_iff : Inverse n S R ↔ toM n n S * toM n n R = 1 := by
  rw [← toM_mul, ← Matrix.ext_iff]
  constructor
  · intro h i j
    have := h i i.2 j j.2
    show mul n S R i j = _
    rw [this, Matrix.one_apply]
    by_cases e : i = j
    · rw [if_pos e, if_pos (congrArg Fin.val e)]
    · rw [if_neg e, if_neg fun h => e (Fin.ext h)]
  · intro h i hi j hj
    have := h ⟨i, hi⟩ ⟨j, hj⟩
    have e : toM n n (mul n S R) ⟨i, hi⟩ ⟨j, hj⟩ = mul n S R i j := rfl
    rw [← e, this, Matrix.one_apply]
    by_cases e : i = j
    · rw [if_pos e, if_pos (Fin.ext e)]
    · rw [if_neg e, if_neg fun h => e (Fin.ext_iff.1 h)]

theorem Inverse.symm (h : Inverse n S R) : Inverse n R S := inverse_iff.2 (mul_eq_one_comm.1 (inverse_iff.1 h))

theorem mul_assoc' (a b : ℕ) (X Y Z : ℕ → ℕ → K) : mul b (mul a X Y) Z = mul a X (mul b Y Z) := by
  funext i j
  simp only [mul, sum_mul, mul_sum]
  rw [sum_comm]
  exact sum_congr rfl fun _ _ => sum_congr rfl fun _ _ => mul_assoc _ _ _

theorem mul_inv_right (h : Inverse n S R) (X : ℕ → ℕ → K) {i j : ℕ} (hj : j < n) : mul n X (mul n S R) i j = X i j := by
  unfold mul
  rw [sum_congr rfl fun k hk => by
    have := h k (mem_range.1 hk) j hj
    unfold mul at this
    rw [this]]
  simp [hj]

theorem mul_inv_left (h : Inverse n S R) (X : ℕ → ℕ → K) {i j : ℕ} (hi : i < n) : mul n (mul n S R) X i j = X i j := by
  have e : mul n (mul n S R) X i j = ∑ k ∈ range n, mul n S R i k * X k j := rfl
  rw [e, sum_congr rfl fun k hk => by rw [h i hi k (mem_range.1 hk)]]
  simp [hi]

/-- `P (X v) = (P X) v` -/
theorem dot_dot (a b : ℕ) (P X : ℕ → ℕ → K) (v : ℕ → K) : dot a P (dot b X v) = dot b (mul a P X) v := by
  funext i
  simp only [dot, mul, sum_mul, mul_sum]
  rw [sum_comm]
  exact sum_congr rfl fun _ _ => sum_congr rfl fun _ _ => (mul_assoc _ _ _).symm

theorem dot_congr {a : ℕ} {X Y : ℕ → ℕ → K} {i : ℕ} (h : ∀ j < a, X i j = Y i j) (v : ℕ → K) : dot a X v i = dot a Y v i :=
  sum_congr rfl fun j hj => by rw [h j (mem_range.1 hj)]

theorem dot_add (a : ℕ) (P : ℕ → ℕ → K) (v w : ℕ → K) (i : ℕ) : dot a P (fun k => v k + w k) i = dot a P v i + dot a P w i := by
  simp only [dot, mul_add, sum_add_distrib]

end arrays

section maps
variable {P : ℕ → ℕ → ℝ} {g g' : Sys ℝ}

theorem Maps.deriv (h : Maps P g g') {x : ℕ → ℝ} {u s d : Vec ℝ} (hd : g.derivative ⟨g.N, x⟩ u s = .ok d) :
    ∃ d', g'.derivative ⟨g'.N, dot g.N P x⟩ u s = .ok d' ∧ ∀ i < g'.N, d'.v i = dot g.N P d.v i := by
  unfold Sys.derivative npDot at hd ⊢
  dsimp only [bind, Except.bind] at hd ⊢
  rw [if_neg (by simp)] at hd
  rw [if_neg (by simp), h.L, h.M]
  by_cases hu : u.len ≠ g.L
  · simp [hu] at hd
  rw [if_neg hu] at hd ⊢
  cases hG : g.Gamma with
  | none => simp [hG] at hd
  | some G =>
    obtain ⟨G', hG', eG⟩ := h.Gamma G hG
    rw [hG] at hd
    rw [hG']
    dsimp only at hd ⊢
    by_cases hs : s.len ≠ g.M
    · simp [hs] at hd
    rw [if_neg hs] at hd ⊢
    obtain rfl := Except.ok.inj hd
    refine ⟨_, rfl, fun i hi => ?_⟩
    show dot g'.N g'.A (dot g.N P x) i + dot g.L g'.B u.v i + dot g.M G' s.v i =
      dot g.N P (fun k => dot g.N g.A x k + dot g.L g.B u.v k + dot g.M G s.v k) i
    rw [dot_add, dot_add g.N P (dot g.N g.A x) (dot g.L g.B u.v), dot_dot, dot_dot, dot_dot, dot_dot]
    congr 1
    · congr 1
      · exact dot_congr (h.A i hi) x
      · exact dot_congr (h.B i hi) _
    · exact dot_congr (eG i hi) _

theorem Maps.observation (h : Maps P g g') {x : ℕ → ℝ} {u s y : Vec ℝ}
    (hy : g.controlObservation ⟨g.N, x⟩ (some u) (some s) = .ok y) :
    ∃ y', g'.controlObservation ⟨g'.N, dot g.N P x⟩ (some u) (some s) = .ok y' ∧ y'.len = y.len ∧ y.len = g.Mt ∧ ∀ i < g.Mt, y'.v i = y.v i := by
  unfold Sys.controlObservation npDot at hy ⊢
  cases hG : g.GammaT with
  | none => simp [hG] at hy
  | some G =>
    obtain ⟨G', hG', eG⟩ := h.GammaT G hG
    rw [hG] at hy
    rw [hG']
    dsimp only [bind, Except.bind] at hy ⊢
    rw [if_neg (by simp)] at hy
    rw [if_neg (by simp), h.L, h.M, h.Mt]
    by_cases hu : u.len ≠ g.L
    · simp [hu] at hy
    rw [if_neg hu] at hy ⊢
    dsimp only at hy ⊢
    by_cases hs : s.len ≠ g.M
    · simp [hs] at hy
    rw [if_neg hs] at hy ⊢
    obtain rfl := Except.ok.inj hy
    refine ⟨_, rfl, rfl, rfl, fun i hi => ?_⟩
    show dot g'.N G' (dot g.N P x) i + dot g.L g'.Bt u.v i + dot g.M g'.At s.v i = dot g.N G x i + dot g.L g.Bt u.v i + dot g.M g.At s.v i
    rw [dot_dot, dot_congr (eG i hi), dot_congr (h.Bt i hi), dot_congr (h.At i hi)]

end maps

section simulation
variable {M : ℕ} {P : ℕ → ℕ → ℝ} {c c' : Cfg M}

theorem decided (h : Maps P c.sys c'.sys) (hd : c'.dc = c.dc) (hi : c'.input = c.input) (hb : c'.hasInput = c.hasInput) {s : St M}
    {e : State ℝ M} (he : c.decide s = .ok e) : c'.decide { s with x := dot c.sys.N P s.x } = .ok e := by
  unfold Cfg.decide at he ⊢
  have hu : c'.u0 { s with x := dot c.sys.N P s.x } = c.u0 s := by
    unfold Cfg.u0
    rw [h.L, hi, hb]
  rw [hu, hd]
  cases hy : c.sys.controlObservation ⟨c.sys.N, s.x⟩ (some (c.u0 s)) (some (asVec (contribution c.dc s.c 0))) with
  | error _ => simp [hy] at he
  | ok y =>
    obtain ⟨y', h1, h2, h3, h4⟩ := h.observation hy
    rw [hy] at he
    rw [h1]
    dsimp only at he ⊢
    rw [h2]
    by_cases hl : y.len < M
    · simp [hl] at he
    rw [if_neg hl] at he ⊢
    rw [← he]
    congr 2
    funext m
    exact h4 m (by have := m.2; omega)

theorem period (h : Maps P c.sys c'.sys) (hd : c'.dc = c.dc) (hi : c'.input = c.input) (hb : c'.hasInput = c.hasInput) {s s' : St M}
    {φ : ℝ → ℕ → ℝ} (hp : Period c s φ s') :
    Period c' { s with x := dot c.sys.N P s.x } (fun τ => dot c.sys.N P (φ τ)) { s' with x := dot c.sys.N P s'.x } where
  dec := decided h hd hi hb hp.dec
  start n _ := sum_congr rfl fun k hk => by rw [hp.start k (mem_range.1 hk)]
  cont n _ := by
    rw [hd]
    exact continuousOn_finsetSum _ fun k hk => continuousOn_const.mul (hp.cont k (mem_range.1 hk))
  ode τ hτ := by
    rw [hd] at hτ
    obtain ⟨d, h1, h2⟩ := hp.ode τ hτ
    have key : ∃ d', c'.rhs { s with x := dot c.sys.N P s.x } s'.c τ (dot c.sys.N P (φ τ)) = .ok d' ∧
        ∀ i < c'.sys.N, d'.v i = dot c.sys.N P d.v i := by
      unfold Cfg.rhs at h1 ⊢
      rw [hb, hd, hi, h.L]
      by_cases hI : c.hasInput
      · rw [if_pos hI] at h1 ⊢
        exact h.deriv h1
      · rw [if_neg hI] at h1 ⊢
        have e : ∀ (b : Bool), c.sys.derivative ⟨c.sys.N, s.x⟩ ⟨c.sys.L, fun _ => 0⟩ (asVec (contribution c.dc s'.c τ)) = .ok d := fun _ => by
          unfold npDot at h1
          unfold Sys.derivative npDot
          dsimp only [bind, Except.bind] at h1 ⊢
          rw [if_neg (by simp)] at h1
          rw [if_neg (by simp), if_neg (by simp)]
          cases hG : c.sys.Gamma with
          | none => simp [hG] at h1
          | some G =>
            rw [hG] at h1
            dsimp only at h1 ⊢
            by_cases hs : (asVec (contribution c.dc s'.c τ)).len ≠ c.sys.M
            · simp [hs] at h1
            rw [if_neg hs] at h1 ⊢
            rw [← h1]
            simp [npAdd, dot]
        obtain ⟨d', e1, e2⟩ := h.deriv (e true)
        refine ⟨d', ?_, e2⟩
        rw [← e1]
        unfold Sys.derivative npDot
        dsimp only [bind, Except.bind]
        rw [if_neg (by simp), h.L, if_neg (by simp)]
        cases hG : c'.sys.Gamma with
        | none => rfl
        | some G =>
          dsimp only
          by_cases hs : (asVec (contribution c.dc s'.c τ)).len ≠ c'.sys.M
          · rw [if_pos hs]
          · rw [if_neg hs]
            simp [npAdd, dot]
    obtain ⟨d', e1, e2⟩ := key
    refine ⟨d', e1, fun n hn => ?_⟩
    rw [e2 n hn]
    exact HasDerivWithinAt.fun_sum fun k hk => (h2 k (mem_range.1 hk)).const_mul _
  stop n _ := by
    show dot c.sys.N P s'.x n = dot c.sys.N P (φ c'.dc.T) n
    rw [hd]
    exact sum_congr rfl fun k hk => by rw [hp.stop k (mem_range.1 hk)]
  ticks := by rw [hb]; exact hp.ticks
  time := by rw [hd]; exact hp.time

theorem maps_sys {S R : ℕ → ℕ → ℝ} {g : Sys ℝ} (h : Inverse g.N S R) : Maps S g (sys S R g) where
  L := rfl
  M := rfl
  Mt := rfl
  A i _ j hj := by
    show mul g.N (mul g.N (mul g.N S g.A) R) S i j = _
    rw [mul_assoc', mul_inv_right h.symm _ hj]
  B _ _ _ _ := rfl
  Gamma G hG := ⟨mul g.N S G, by show g.Gamma.map _ = _; rw [hG]; rfl, fun _ _ _ _ => rfl⟩
  GammaT G hG := ⟨mul g.N G R, by show g.GammaT.map _ = _; rw [hG]; rfl, fun i _ j hj => by
    show mul g.N (mul g.N G R) S i j = _
    rw [mul_assoc', mul_inv_right h.symm _ hj]⟩
  Bt _ _ _ _ := rfl
  At _ _ _ _ := rfl

theorem maps_back {S R : ℕ → ℕ → ℝ} {g : Sys ℝ} (h : Inverse g.N S R) : Maps R (sys S R g) g where
  L := rfl
  M := rfl
  Mt := rfl
  A i hi j _ := by
    show mul g.N g.A R i j = mul g.N R (mul g.N (mul g.N S g.A) R) i j
    rw [mul_assoc', ← mul_assoc', mul_inv_left h.symm _ hi]
  B i hi j _ := by
    show g.B i j = mul g.N R (mul g.N S g.B) i j
    rw [← mul_assoc', mul_inv_left h.symm _ hi]
  Gamma G hG := by
    change g.Gamma.map _ = _ at hG
    obtain ⟨G0, h0, rfl⟩ := Option.map_eq_some_iff.1 hG
    refine ⟨G0, h0, fun i hi m _ => ?_⟩
    show _ = mul g.N R (mul g.N S G0) i m
    rw [← mul_assoc', mul_inv_left h.symm _ hi]
  GammaT G hG := by
    change g.GammaT.map _ = _ at hG
    obtain ⟨G0, h0, rfl⟩ := Option.map_eq_some_iff.1 hG
    exact ⟨G0, h0, fun _ _ _ _ => rfl⟩
  Bt _ _ _ _ := rfl
  At _ _ _ _ := rfl

end simulation

/-! ### Estimators -/

/-- two iterators whose states correspond give the same results -/
theorem call_map {V S S' : Type*} (next : S → Res V × S) (next' : S' → Res V × S') (f : S → S')
    (h : ∀ s, next' (f s) = ((next s).1, f (next s).2)) (s0 : S) (k : ℕ) : call next' (f s0) k = call next s0 k := by
  have e : stateAfter next' (f s0) k = f (stateAfter next s0 k) := by
    induction k with
    | zero => rfl
    | succ k ih => show (next' (stateAfter next' (f s0) k)).2 = _; rw [ih, h]; rfl
  unfold call
  rw [e, h]

section estimators
variable {K : Type*} [CommRing K] {N M L : ℕ} {S R : Matrix (Fin N) (Fin N) K} (c : Coeffs K N M L)

theorem cancel {p : ℕ} (h : R * S = 1) (X : Matrix (Fin N) (Fin p) K) : R * (S * X) = X := by
  rw [← Matrix.mul_assoc, h, Matrix.one_mul]

theorem firLookback_eq (h : R * S = 1) (K1 i : ℕ) :
    firLookback (coeffs S R c) K1 i = ((firLookback c K1 i).1, S * (firLookback c K1 i).2) := by
  induction i with
  | zero => rfl
  | succ i ih =>
    simp only [firLookback, ih]
    simp only [coeffs, Matrix.mul_assoc, cancel h]

theorem firLookahead_eq (h : R * S = 1) (K1 : ℕ) (h0 : ℕ → Matrix (Fin L) (Fin M) K) (i : ℕ) :
    firLookahead (coeffs S R c) K1 h0 i = ((firLookahead c K1 h0 i).1, S * (firLookahead c K1 h0 i).2) := by
  induction i with
  | zero => rfl
  | succ i ih =>
    simp only [firLookahead, ih]
    simp only [coeffs, Matrix.mul_assoc, cancel h]

theorem firTaps_eq (h : R * S = 1) (K1 K2 : ℕ) : firTaps (coeffs S R c) K1 K2 = firTaps c K1 K2 := by
  unfold firTaps
  rw [firLookback_eq c h, firLookahead_eq c h]

theorem iirLookahead_eq (h : R * S = 1) (i : ℕ) :
    iirLookahead (coeffs S R c) i = ((iirLookahead c i).1, S * (iirLookahead c i).2) := by
  induction i with
  | zero => rfl
  | succ i ih =>
    simp only [iirLookahead, ih]
    simp only [coeffs, Matrix.mul_assoc, cancel h]

/-- the state of the recursive filter in the new variables -/
def iirState (S : Matrix (Fin N) (Fin N) K) (st : IIRState K N M) : IIRState K N M := { st with mean := S *ᵥ st.mean }

theorem iir_pass (h : R * S = 1) (f : IIR K N M L) (src : ℕ → Res (Fin M → K)) (st : IIRState K N M) :
    IIR.pass { f with c := coeffs S R f.c } src (iirState S st) = ((f.pass src st).1, iirState S (f.pass src st).2) := by
  have e1 : ∀ v : Fin N → K, (f.c.WT * R) *ᵥ (S *ᵥ v) = f.c.WT *ᵥ v := fun v => by
    rw [mulVec_mulVec, Matrix.mul_assoc, h, Matrix.mul_one]
  have e2 : ∀ (v : Fin N → K) (w : Fin M → K), (S * f.c.Af * R) *ᵥ (S *ᵥ v) + (S * f.c.Bf) *ᵥ w = S *ᵥ (f.c.Af *ᵥ v + f.c.Bf *ᵥ w) := fun v w => by
    rw [mulVec_mulVec, Matrix.mul_assoc, h, Matrix.mul_one, mulVec_add, mulVec_mulVec, mulVec_mulVec]
  unfold IIR.pass
  simp only [iirState, coeffs, e1, e2]
  by_cases h1 : f.limit ≠ 0 ∧ f.limit < st.iteration + 1
  · rw [if_pos h1, if_pos h1]
  rw [if_neg h1, if_neg h1]
  cases src st.calls with
  | error e => cases e <;> rfl
  | ok s =>
    dsimp only
    by_cases h2 : f.K2 = 0
    · rw [if_pos h2, if_pos h2]
    rw [if_neg h2, if_neg h2]
    by_cases h3 : f.ds = 0
    · rw [if_pos h3, if_pos h3]
    rw [if_neg h3, if_neg h3]
    by_cases h4 : (st.iteration + 1 - 1) % f.ds = 0
    · rw [if_pos h4, if_pos h4]
    · rw [if_neg h4, if_neg h4]

theorem iir_next (h : R * S = 1) (f : IIR K N M L) (src : ℕ → Res (Fin M → K)) (st : IIRState K N M) :
    IIR.next { f with c := coeffs S R f.c } src (iirState S st) = ((f.next src st).1, iirState S (f.next src st).2) := by
  have : ∀ n st, IIR.nextFuel { f with c := coeffs S R f.c } src n (iirState S st) = ((f.nextFuel src n st).1, iirState S (f.nextFuel src n st).2) := by
    intro n
    induction n with
    | zero => exact fun st => rfl
    | succ n ih =>
      intro st
      unfold IIR.nextFuel
      rw [iir_pass h]
      rcases f.pass src st with ⟨r, st'⟩
      cases r with
      | error e => rfl
      | ok o =>
        cases o with
        | none => exact ih st'
        | some v => rfl
  exact this _ st

/-- the state of the batch estimator in the new variables -/
def batchState (S : Matrix (Fin N) (Fin N) K) (st : BatchState K N M L) : BatchState K N M L := { st with mean := fun k => S *ᵥ st.mean k }

theorem update_map {V W : Type*} (g : V → W) (f : ℕ → V) (i : ℕ) (v : V) :
    Function.update (fun k => g (f k)) i (g v) = fun k => g (Function.update f i v k) := by
  funext k
  by_cases h : k = i
  · subst h; simp
  · simp [Function.update_of_ne h]

theorem lookahead_eq (h : R * S = 1) (K3 : ℕ) (cs : ℕ → Fin M → K) (m0 : Fin N → K) (i : ℕ) :
    batchLookahead (coeffs S R c) K3 cs (S *ᵥ m0) i = S *ᵥ batchLookahead c K3 cs m0 i := by
  induction i with
  | zero => rfl
  | succ i ih =>
    simp only [batchLookahead, ih]
    show (S * c.Ab * R) *ᵥ (S *ᵥ _) + (S * c.Bb) *ᵥ _ = _
    rw [mulVec_mulVec, Matrix.mul_assoc, h, Matrix.mul_one, mulVec_add, mulVec_mulVec, mulVec_mulVec]

theorem forward_eq (h : R * S = 1) (K1 : ℕ) (cs : ℕ → Fin M → K) (m0 : ℕ → Fin N → K) (i : ℕ) :
    batchForward (coeffs S R c) K1 cs (fun k => S *ᵥ m0 k) i =
      (fun k => S *ᵥ (batchForward c K1 cs m0 i).1 k, S *ᵥ (batchForward c K1 cs m0 i).2) := by
  induction i with
  | zero => simp [batchForward]
  | succ i ih =>
    simp only [batchForward, ih]
    have e : (coeffs S R c).Af *ᵥ (S *ᵥ (batchForward c K1 cs m0 i).1 i) + (coeffs S R c).Bf *ᵥ cs i =
        S *ᵥ (c.Af *ᵥ (batchForward c K1 cs m0 i).1 i + c.Bf *ᵥ cs i) := by
      show (S * c.Af * R) *ᵥ (S *ᵥ _) + (S * c.Bf) *ᵥ _ = _
      rw [mulVec_mulVec, Matrix.mul_assoc, h, Matrix.mul_one, mulVec_add, mulVec_mulVec, mulVec_mulVec]
    rw [e]
    by_cases h1 : i + 1 < K1
    · rw [if_pos h1, if_pos h1, update_map (S *ᵥ ·)]
    · rw [if_neg h1, if_neg h1]

theorem backward_eq (h : R * S = 1) (K1 : ℕ) (cs : ℕ → Fin M → K) (m0 : ℕ → Fin N → K) (est : ℕ → Fin L → K) (i : ℕ) :
    batchBackward (coeffs S R c) K1 cs (fun k => S *ᵥ m0 k) est i =
      (fun k => S *ᵥ (batchBackward c K1 cs m0 est i).1 k, (batchBackward c K1 cs m0 est i).2) := by
  induction i with
  | zero => rfl
  | succ i ih =>
    simp only [batchBackward, ih]
    have e : ∀ k, (coeffs S R c).Ab *ᵥ (S *ᵥ (batchBackward c K1 cs m0 est i).1 (k + 1)) + (coeffs S R c).Bb *ᵥ cs k =
        S *ᵥ (c.Ab *ᵥ (batchBackward c K1 cs m0 est i).1 (k + 1) + c.Bb *ᵥ cs k) := fun k => by
      show (S * c.Ab * R) *ᵥ (S *ᵥ _) + (S * c.Bb) *ᵥ _ = _
      rw [mulVec_mulVec, Matrix.mul_assoc, h, Matrix.mul_one, mulVec_add, mulVec_mulVec, mulVec_mulVec]
    have e' : ∀ v w : Fin N → K, (coeffs S R c).WT *ᵥ (S *ᵥ v - S *ᵥ w) = c.WT *ᵥ (v - w) := fun v w => by
      show (c.WT * R) *ᵥ _ = _
      rw [← mulVec_sub, mulVec_mulVec, Matrix.mul_assoc, h, Matrix.mul_one]
    simp only [e, e', update_map (S *ᵥ ·)]

theorem batch_compute (h : R * S = 1) (f : Batch K N M L) (st : BatchState K N M L) :
    Batch.computeBatch { f with c := coeffs S R f.c } (batchState S st) = (f.computeBatch st).map (batchState S) := by
  unfold Batch.computeBatch
  by_cases h1 : st.inBuffer < f.K1 + f.K2
  · simp only [batchState, h1, if_true, Except.map]
  simp only [batchState, h1, if_false, Except.map, lookahead_eq f.c h, update_map (S *ᵥ ·), forward_eq f.c h, backward_eq f.c h]
  congr 2
  rw [← mulVec_zero S, update_map (S *ᵥ ·)]
  simp

theorem batch_input (f : Batch K N M L) (st : BatchState K N M L) (s : Fin M → K) :
    Batch.input { f with c := coeffs S R f.c } (batchState S st) s = (f.input st s).map fun p => (p.1, batchState S p.2) := by
  unfold Batch.input
  by_cases h1 : st.inBuffer = f.K1 + f.K2
  · rw [if_pos h1]
    exact if_pos h1
  · rw [if_neg h1]
    exact if_neg h1

theorem batch_fill (f : Batch K N M L) (src : ℕ → Res (Fin M → K)) (n : ℕ) (st : BatchState K N M L) :
    Batch.fill { f with c := coeffs S R f.c } src n (batchState S st) = ((f.fill src n st).1, batchState S (f.fill src n st).2) := by
  induction n generalizing st with
  | zero => rfl
  | succ n ih =>
    have go : ∀ (s : Fin M → K) (st' : BatchState K N M L),
        (match Batch.input { f with c := coeffs S R f.c } (batchState S st') s with
          | .error e => ((.error e : Res Unit), batchState S st')
          | .ok (full, st'') => if full then (.ok (), st'') else Batch.fill { f with c := coeffs S R f.c } src n st'') =
        ((match f.input st' s with
          | .error e => ((.error e : Res Unit), st')
          | .ok (full, st'') => if full then (.ok (), st'') else Batch.fill f src n st'').1,
          batchState S (match f.input st' s with
          | .error e => ((.error e : Res Unit), st')
          | .ok (full, st'') => if full then (.ok (), st'') else Batch.fill f src n st'').2) := by
      intro s st'
      rw [batch_input]
      cases f.input st' s with
      | error e => rfl
      | ok p =>
        obtain ⟨b, st''⟩ := p
        cases b with
        | true => rfl
        | false => exact ih st''
    unfold Batch.fill
    have hc : (batchState S st).calls = st.calls := rfl
    simp only [hc]
    cases src st.calls with
    | ok s => exact go s { st with calls := st.calls + 1 }
    | error e =>
      cases e
      case runtimeError => exact go 0 { st with calls := st.calls + 1, stop := true }
      all_goals rfl

theorem batch_next (h : R * S = 1) (f : Batch K N M L) (src : ℕ → Res (Fin M → K)) (st : BatchState K N M L) :
    Batch.next { f with c := coeffs S R f.c } src (batchState S st) = ((f.next src st).1, batchState S (f.next src st).2) := by
  have : ∀ n st, Batch.nextFuel { f with c := coeffs S R f.c } src n (batchState S st) =
      ((f.nextFuel src n st).1, batchState S (f.nextFuel src n st).2) := by
    intro n
    induction n with
    | zero => exact fun st => rfl
    | succ n ih =>
      intro st
      unfold Batch.nextFuel
      have e1 : (batchState S st).iteration = st.iteration := rfl
      rw [e1]
      by_cases h1 : f.limit < st.iteration
      · rw [if_pos h1, if_pos h1]
      rw [if_neg h1, if_neg h1]
      have e2 : (batchState S st).pointer = st.pointer := rfl
      have e3 : (batchState S st).stop = st.stop := rfl
      dsimp only
      rw [e2, e3]
      by_cases h2 : st.pointer < f.K1
      · rw [if_pos h2, if_pos h2]; rfl
      rw [if_neg h2, if_neg h2]
      by_cases h3 : st.stop = true
      · rw [if_pos h3, if_pos h3]; rfl
      rw [if_neg h3, if_neg h3]
      have e4 := batch_fill (S := S) (R := R) f src (f.K1 + f.K2 + 1) { st with iteration := st.iteration + 1 }
      erw [e4]
      rcases f.fill src (f.K1 + f.K2 + 1) { st with iteration := st.iteration + 1 } with ⟨r, st2⟩
      cases r with
      | error e => rfl
      | ok u =>
        dsimp only
        rw [batch_compute h]
        cases f.computeBatch st2 with
        | error e => rfl
        | ok st3 => exact ih { st3 with pointer := st3.pointer - f.K1 }
  exact this _ st

end estimators

end Cbadc.Coordinates
