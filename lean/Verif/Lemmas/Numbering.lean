import Verif.Spec.Numbering
import Verif.Lemmas.Simulator
import Verif.Lemmas.Coordinates

/-! # Lemmas: numbering of inputs and controls (C156) -/

namespace Cbadc.Numbering

open Matrix Finset Set Cbadc.Analog Cbadc.Control Cbadc.Simulate Cbadc.Estimator Cbadc.Streams

section up
variable {K : Type*} [CommRing K] {n : ℕ} (σ : Equiv.Perm (Fin n))

theorem up_of_lt {i : ℕ} (h : i < n) : up σ i = σ ⟨i, h⟩ := dif_pos h

theorem up_fin (i : Fin n) : up σ i = σ i := up_of_lt σ i.2

theorem up_lt {i : ℕ} (h : i < n) : up σ i < n := by
  rw [up_of_lt σ h]
  exact (σ ⟨i, h⟩).2

theorem up_of_not_lt {i : ℕ} (h : ¬ i < n) : up σ i = i := dif_neg h

theorem up_symm (i : ℕ) : up σ (up σ⁻¹ i) = i := by
  by_cases h : i < n
  · rw [up_of_lt σ⁻¹ h, up_fin]
    simp
  · rw [up_of_not_lt σ⁻¹ h, up_of_not_lt σ h]

theorem symm_up (i : ℕ) : up σ⁻¹ (up σ i) = i := by
  have := up_symm σ⁻¹ i
  rwa [inv_inv] at this

theorem sum_up (f : ℕ → K) : ∑ i ∈ range n, f (up σ i) = ∑ i ∈ range n, f i := by
  rw [Finset.sum_range, Finset.sum_range]
  simp only [up_fin]
  exact Equiv.sum_comp σ fun i => f i

end up

theorem dot_up {K : Type*} [Field K] {n : ℕ} (σ : Equiv.Perm (Fin n)) (X : ℕ → ℕ → K) (v : ℕ → K) (i : ℕ) :
    dot n (fun i j => X i (up σ j)) (fun j => v (up σ j)) i = dot n X v i := sum_up σ fun j => X i j * v j

/-- an array in the new numbering -/
def vec {K : Type*} {n : ℕ} (σ : Equiv.Perm (Fin n)) (v : Vec K) : Vec K := ⟨v.len, fun i => v.v (up σ i)⟩

theorem vec_len {K : Type*} {n : ℕ} (σ : Equiv.Perm (Fin n)) (v : Vec K) : (vec σ v).len = v.len := rfl

section simulation
variable {M : ℕ} (σ : Equiv.Perm (Fin M))

theorem asVec_vec (v : Fin M → ℝ) : asVec (v ∘ σ) = vec σ (asVec v) := by
  unfold asVec vec
  congr 1
  funext i
  dsimp only
  by_cases h : i < M
  · rw [dif_pos h, dif_pos (up_lt σ h)]
    simp only [up_of_lt σ h]
    rfl
  · rw [dif_neg h, dif_neg (by rwa [up_of_not_lt σ h])]

theorem contribution_eq (d : DC ℝ M) (c : State ℝ M) (t : ℝ) : contribution (control σ d) (state σ c) t = contribution d c t ∘ σ := rfl

theorem update_eq (d : DC ℝ M) (c : State ℝ M) (t : ℝ) (y : Fin M → ℝ) :
    update (control σ d) (state σ c) t (y ∘ σ) = state σ (update d c t y) := rfl

theorem derivative_eq (g : Sys ℝ) (π : Equiv.Perm (Fin g.L)) (x u s : Vec ℝ) (hs : s.len = M) :
    (sys σ g π).derivative x (vec π u) (vec σ s) = g.derivative x u s := by
  unfold Sys.derivative npDot
  dsimp only [bind, Except.bind]
  by_cases hx : x.len ≠ g.N
  · rw [if_pos hx]
  rw [if_neg hx]
  dsimp only
  rw [vec_len π u]
  by_cases hu : u.len ≠ g.L
  · rw [if_pos hu, if_pos hu]
  rw [if_neg hu, if_neg hu]
  dsimp only
  cases hG : g.Gamma with
  | none => rfl
  | some G =>
    simp only [Option.map_some]
    rw [vec_len σ s]
    by_cases hm : s.len ≠ g.M
    · rw [if_pos hm, if_pos hm]
    rw [if_neg hm, if_neg hm]
    have hM : M = g.M := hs.symm.trans (not_not.1 hm)
    refine congrArg Except.ok ?_
    unfold npAdd
    congr 1
    funext i
    show dot g.N g.A x.v i + dot g.L (fun i l => g.B i (up π l)) (fun j => u.v (up π j)) i + dot g.M (fun i m => G i (up σ m)) (fun j => s.v (up σ j)) i = _
    rw [dot_up, ← hM, dot_up]

theorem observation_eq (g : Sys ℝ) (π : Equiv.Perm (Fin g.L)) (x u s : Vec ℝ) (hs : s.len = M) :
    (sys σ g π).controlObservation x (some (vec π u)) (some (vec σ s)) = (g.controlObservation x (some u) (some s)).map (vec σ) := by
  unfold Sys.controlObservation npDot
  dsimp only
  cases hG : g.GammaT with
  | none => rfl
  | some G =>
    simp only [Option.map_some]
    dsimp only [bind, Except.bind]
    by_cases hx : x.len ≠ g.N
    · rw [if_pos hx, if_pos hx]; rfl
    rw [if_neg hx, if_neg hx]
    dsimp only
    rw [vec_len π u]
    by_cases hu : u.len ≠ g.L
    · rw [if_pos hu, if_pos hu]; rfl
    rw [if_neg hu, if_neg hu]
    dsimp only
    rw [vec_len σ s]
    by_cases hm : s.len ≠ g.M
    · rw [if_pos hm, if_pos hm]; rfl
    rw [if_neg hm, if_neg hm]
    have hM : M = g.M := hs.symm.trans (not_not.1 hm)
    refine congrArg Except.ok ?_
    unfold npAdd vec
    congr 1
    funext i
    show dot g.N (fun m i => G (up σ m) i) x.v i + dot g.L (fun m l => g.Bt (up σ m) (up π l)) (fun j => u.v (up π j)) i +
      dot g.M (fun m k => g.At (up σ m) (up σ k)) (fun j => s.v (up σ j)) i =
      dot g.N G x.v (up σ i) + dot g.L g.Bt u.v (up σ i) + dot g.M g.At s.v (up σ i)
    rw [dot_up π (fun m l => g.Bt (up σ m) l), ← hM, dot_up σ fun m k => g.At (up σ m) k]
    rfl

theorem decide_eq (c : Cfg M) (π : Equiv.Perm (Fin c.sys.L)) (s : St M) : (config σ c π).decide (st σ s) = (c.decide s).map (state σ) := by
  unfold Cfg.decide
  have hu : (config σ c π).u0 (st σ s) = vec π (c.u0 s) := rfl
  have hy := observation_eq σ c.sys π ⟨c.sys.N, s.x⟩ (c.u0 s) (asVec (contribution c.dc s.c 0)) rfl
  have hc : asVec (contribution (control σ c.dc) (state σ s.c) 0) = vec σ (asVec (contribution c.dc s.c 0)) := by
    rw [contribution_eq, asVec_vec]
  rw [hu]
  show (match (sys σ c.sys π).controlObservation ⟨c.sys.N, s.x⟩ (some (vec π (c.u0 s)))
      (some (asVec (contribution (control σ c.dc) (state σ s.c) 0))) with
    | .error e => .error e
    | .ok y => if y.len < M then .error .indexError else .ok (update (control σ c.dc) (state σ s.c) 0 fun m => y.v m) : Res (State ℝ M)) = _
  rw [hc, hy]
  cases c.sys.controlObservation ⟨c.sys.N, s.x⟩ (some (c.u0 s)) (some (asVec (contribution c.dc s.c 0))) with
  | error _ => rfl
  | ok y =>
    show (if y.len < M then .error .indexError else .ok (update (control σ c.dc) (state σ s.c) 0 fun m => y.v (up σ m)) : Res (State ℝ M)) =
      (if y.len < M then .error .indexError else .ok (update c.dc s.c 0 fun m => y.v m) : Res (State ℝ M)).map (state σ)
    by_cases hl : y.len < M
    · rw [if_pos hl, if_pos hl]; rfl
    rw [if_neg hl, if_neg hl]
    simp only [up_fin]
    rfl

theorem rhs_eq (c : Cfg M) (π : Equiv.Perm (Fin c.sys.L)) (s : St M) (e : State ℝ M) (τ : ℝ) (y : ℕ → ℝ) :
    (config σ c π).rhs (st σ s) (state σ e) τ y = c.rhs s e τ y := by
  have hc : asVec (contribution (control σ c.dc) (state σ e) τ) = vec σ (asVec (contribution c.dc e τ)) := by
    rw [contribution_eq, asVec_vec]
  unfold Cfg.rhs
  by_cases hI : c.hasInput
  · rw [if_pos hI, if_pos hI]
    show (sys σ c.sys π).derivative _ _ (asVec (contribution (control σ c.dc) (state σ e) τ)) = _
    rw [hc]
    exact derivative_eq σ c.sys π ⟨c.sys.N, y⟩ ⟨c.sys.L, fun l => c.input (s.ticks + 1) (τ + s.t) l⟩ _ rfl
  · rw [if_neg hI, if_neg hI]
    unfold npDot
    dsimp only [bind, Except.bind]
    rw [if_neg (by simp), if_neg (by simp)]
    dsimp only
    cases hG : c.sys.Gamma with
    | none => rfl
    | some G =>
      simp only [Option.map_some]
      have hl : (asVec (contribution c.dc e τ)).len = M := rfl
      rw [hc, vec_len, hl]
      by_cases hm : M ≠ c.sys.M
      · rw [if_pos hm, if_pos hm]
      rw [if_neg hm, if_neg hm]
      refine congrArg Except.ok ?_
      unfold npAdd
      congr 1
      funext i
      show dot c.sys.N c.sys.A s.x i + dot c.sys.M (fun i m => G i (up σ m)) (fun j => (asVec (contribution c.dc e τ)).v (up σ j)) i =
        dot c.sys.N c.sys.A s.x i + dot c.sys.M G (asVec (contribution c.dc e τ)).v i
      rw [← not_not.1 hm, dot_up]

theorem period (c : Cfg M) (π : Equiv.Perm (Fin c.sys.L)) {s s' : St M} {φ : ℝ → ℕ → ℝ} (hp : Period c s φ s') :
    Period (config σ c π) (st σ s) φ (st σ s') where
  dec := by rw [decide_eq, hp.dec]; rfl
  start := hp.start
  cont := hp.cont
  ode τ hτ := by
    obtain ⟨d, h1, h2⟩ := hp.ode τ hτ
    exact ⟨d, (rhs_eq σ c π s s'.c τ (φ τ)).trans h1, h2⟩
  stop := hp.stop
  ticks := hp.ticks
  time := hp.time

theorem state_inv {K : Type*} (c : State K M) : state σ⁻¹ (state σ c) = c := by
  unfold state
  simp [Function.comp_def]

theorem control_inv {K : Type*} (d : DC K M) : control σ⁻¹ (control σ d) = d := by
  unfold control
  simp [Function.comp_def]

theorem sys_inv {K : Type*} (g : Sys K) (π : Equiv.Perm (Fin g.L)) : sys σ⁻¹ (sys σ g π) π⁻¹ = g := by
  unfold sys
  simp [up_symm, Option.map_map, Function.comp_def]

theorem config_inv (c : Cfg M) (π : Equiv.Perm (Fin c.sys.L)) : config σ⁻¹ (config σ c π) π⁻¹ = c := by
  unfold config
  rw [control_inv]
  have h := sys_inv σ c.sys π
  obtain ⟨g, d, i, b⟩ := c
  simp only [up_symm]
  congr 1

theorem st_inv (s : St M) : st σ⁻¹ (st σ s) = s := by
  unfold st
  rw [state_inv]

end simulation

section estimators

/-- two iterators whose states correspond give corresponding results -/
theorem call_map {V W S S' : Type*} (next : S → Res V × S) (next' : S' → Res W × S') (f : S → S') (g : V → W)
    (h : ∀ s, next' (f s) = ((next s).1.map g, f (next s).2)) (s0 : S) (k : ℕ) : call next' (f s0) k = (call next s0 k).map g := by
  have e : stateAfter next' (f s0) k = f (stateAfter next s0 k) := by
    induction k with
    | zero => rfl
    | succ k ih => show (next' (stateAfter next' (f s0) k)).2 = _; rw [ih, h]; rfl
  unfold call
  rw [e, h]

variable {K : Type*} [CommRing K] {N M L : ℕ} (σ : Equiv.Perm (Fin M)) (π : Equiv.Perm (Fin L)) (c : Coeffs K N M L)

/-- filter taps in the new numbering -/
def taps (h : ℕ → Matrix (Fin L) (Fin M) K) : ℕ → Matrix (Fin L) (Fin M) K := fun k => (h k).submatrix π σ

/-- buffers of control signals in the new numbering -/
def buffer (b : ℕ → Fin M → K) : ℕ → Fin M → K := fun k => b k ∘ σ

/-- control signals in the new numbering -/
def source (src : ℕ → Res (Fin M → K)) : ℕ → Res (Fin M → K) := fun k => (src k).map (· ∘ σ)

omit [CommRing K] in
theorem update_taps (h : ℕ → Matrix (Fin L) (Fin M) K) (i : ℕ) (v : Matrix (Fin L) (Fin M) K) :
    Function.update (taps σ π h) i (v.submatrix π σ) = taps σ π (Function.update h i v) :=
  Coordinates.update_map (fun v : Matrix (Fin L) (Fin M) K => v.submatrix π σ) h i v

omit [CommRing K] in
theorem update_buffer (b : ℕ → Fin M → K) (i : ℕ) (v : Fin M → K) : Function.update (buffer σ b) i (v ∘ σ) = buffer σ (Function.update b i v) :=
  Coordinates.update_map (fun v : Fin M → K => v ∘ σ) b i v

theorem mulVec_perm {p : ℕ} (X : Matrix (Fin p) (Fin M) K) (v : Fin M → K) : X.submatrix id σ *ᵥ (v ∘ σ) = X *ᵥ v := by
  funext i
  exact Equiv.sum_comp σ fun j => X i j * v j

theorem lookback_eq (K1 i : ℕ) :
    firLookback (coeffs σ π c) K1 i = (taps σ π (firLookback c K1 i).1, (firLookback c K1 i).2.submatrix id σ) := by
  induction i with
  | zero => rfl
  | succ i ih =>
    simp only [firLookback, ih]
    rw [← update_taps]
    rfl

theorem lookahead_eq (K1 : ℕ) (h0 : ℕ → Matrix (Fin L) (Fin M) K) (i : ℕ) :
    firLookahead (coeffs σ π c) K1 (taps σ π h0) i = (taps σ π (firLookahead c K1 h0 i).1, (firLookahead c K1 h0 i).2.submatrix id σ) := by
  induction i with
  | zero => rfl
  | succ i ih =>
    simp only [firLookahead, ih]
    rw [← update_taps]
    rfl

theorem taps_eq (K1 K2 : ℕ) : firTaps (coeffs σ π c) K1 K2 = taps σ π (firTaps c K1 K2) := by
  unfold firTaps
  rw [lookback_eq, lookahead_eq]

theorem iir_taps (i : ℕ) : iirLookahead (coeffs σ π c) i = (taps σ π (iirLookahead c i).1, (iirLookahead c i).2.submatrix id σ) := by
  induction i with
  | zero => rfl
  | succ i ih =>
    simp only [iirLookahead, ih]
    rw [← update_taps]
    rfl

theorem tensordot_eq (n : ℕ) (h : ℕ → Matrix (Fin L) (Fin M) K) (b : ℕ → Fin M → K) :
    tensordot n (taps σ π h) (buffer σ b) = tensordot n h b ∘ π := by
  funext l
  show ∑ k ∈ range n, ∑ m, h k (π l) (σ m) * b k (σ m) = ∑ k ∈ range n, ∑ m, h k (π l) m * b k m
  exact sum_congr rfl fun k _ => Equiv.sum_comp σ fun m => h k (π l) m * b k m

theorem pull_eq (src : ℕ → Res (Fin M → K)) (start n : ℕ) :
    firPull (source σ src) start n = ((firPull src start n).1.map (buffer σ), (firPull src start n).2) := by
  induction n with
  | zero => rfl
  | succ n ih =>
    unfold firPull
    rw [ih]
    rcases firPull src start n with ⟨r, k⟩
    cases r with
    | error e => rfl
    | ok rows =>
      show (match (src (start + n)).map (· ∘ σ) with
        | .error e => (.error e, k + 1)
        | .ok s => (.ok (Function.update (buffer σ rows) n (valued s)), k + 1) : Res (ℕ → Fin M → K) × ℕ) = _
      cases src (start + n) with
      | error e => rfl
      | ok s =>
        show ((.ok (Function.update (buffer σ rows) n (valued s ∘ σ)), k + 1) : Res (ℕ → Fin M → K) × ℕ) = _
        rw [update_buffer]
        rfl

/-- the filter with finite response in the new numbering -/
def fir (f : FIR K M L) : FIR K M L := { f with h := taps σ π f.h, offset := f.offset ∘ π }

/-- its state -/
def firState (s : FIRState K M) : FIRState K M := { s with buf := buffer σ s.buf }

theorem fir_next (f : FIR K M L) (src : ℕ → Res (Fin M → K)) (s : FIRState K M) :
    (fir σ π f).next (source σ src) (firState σ s) = ((f.next src s).1.map (· ∘ π), firState σ (f.next src s).2) := by
  unfold FIR.next
  dsimp only [fir, firState]
  rw [pull_eq]
  by_cases h1 : f.limit ≠ 0 ∧ f.limit < s.iteration + f.ds
  · rw [if_pos h1]
    exact if_pos h1
  rw [if_neg h1]
  refine (if_neg h1).trans ?_
  rcases firPull src s.calls f.ds with ⟨r, k⟩
  cases r with
  | error e => cases e <;> rfl
  | ok rows =>
    dsimp only [Except.map]
    by_cases h2 : f.K1 + f.K2 < f.ds
    · rw [if_pos h2]
      exact if_pos h2
    rw [if_neg h2]
    refine (if_neg h2).trans ?_
    have e : (fun j => if f.K1 + f.K2 - f.ds ≤ j then buffer σ rows (j - (f.K1 + f.K2 - f.ds)) else roll (f.K1 + f.K2) f.ds (buffer σ s.buf) j) =
        buffer σ fun j => if f.K1 + f.K2 - f.ds ≤ j then rows (j - (f.K1 + f.K2 - f.ds)) else roll (f.K1 + f.K2) f.ds s.buf j := by
      funext j
      unfold buffer roll
      dsimp only
      by_cases h : f.K1 + f.K2 - f.ds ≤ j
      · rw [if_pos h, if_pos h]
      · rw [if_neg h, if_neg h]
    have e2 := tensordot_eq σ π (f.K1 + f.K2) f.h fun j => if f.K1 + f.K2 - f.ds ≤ j then rows (j - (f.K1 + f.K2 - f.ds)) else roll (f.K1 + f.K2) f.ds s.buf j
    rw [← e] at e2
    exact Prod.ext (congrArg (fun v => Except.ok (v + f.offset ∘ π)) e2)
      (congrArg (fun b => (⟨b, s.iteration + f.ds, s.calls + k, s.timeIndex + 1⟩ : FIRState K M)) e)

/-- the recursive filter in the new numbering -/
def iir (f : IIR K N M L) : IIR K N M L := { f with c := coeffs σ π f.c, h := taps σ π f.h }

/-- its state -/
def iirState (s : IIRState K N M) : IIRState K N M := { s with buf := buffer σ s.buf }

theorem iir_pass (f : IIR K N M L) (src : ℕ → Res (Fin M → K)) (s : IIRState K N M) :
    (iir σ π f).pass (source σ src) (iirState σ s) = ((f.pass src s).1.map (Option.map (· ∘ π)), iirState σ (f.pass src s).2) := by
  unfold IIR.pass
  dsimp only [iir, iirState]
  by_cases h1 : f.limit ≠ 0 ∧ f.limit < s.iteration + 1
  · rw [if_pos h1]
    exact if_pos h1
  rw [if_neg h1]
  refine (if_neg h1).trans ?_
  unfold source
  cases src s.calls with
  | error e => cases e <;> rfl
  | ok v =>
    dsimp only [Except.map]
    by_cases h2 : f.K2 = 0
    · rw [if_pos h2]
      exact if_pos h2
    rw [if_neg h2]
    refine (if_neg h2).trans ?_
    have e : Function.update (roll f.K2 1 (buffer σ s.buf)) (f.K2 - 1) (valued (v ∘ σ)) =
      buffer σ (Function.update (roll f.K2 1 s.buf) (f.K2 - 1) (valued v)) := update_buffer σ (roll f.K2 1 s.buf) (f.K2 - 1) (valued v)
    rw [e, tensordot_eq]
    have e2 : (coeffs σ π f.c).Af *ᵥ s.mean + (coeffs σ π f.c).Bf *ᵥ buffer σ (Function.update (roll f.K2 1 s.buf) (f.K2 - 1) (valued v)) 0 =
        f.c.Af *ᵥ s.mean + f.c.Bf *ᵥ Function.update (roll f.K2 1 s.buf) (f.K2 - 1) (valued v) 0 := by
      show _ + f.c.Bf.submatrix id σ *ᵥ (_ ∘ σ) = _
      rw [mulVec_perm]
      rfl
    rw [e2]
    by_cases h3 : f.ds = 0
    · rw [if_pos h3]
      exact if_pos h3
    rw [if_neg h3]
    refine (if_neg h3).trans ?_
    by_cases h4 : (s.iteration + 1 - 1) % f.ds = 0
    · rw [if_pos h4]
      exact if_pos h4
    · rw [if_neg h4]
      exact if_neg h4

theorem iir_next (f : IIR K N M L) (src : ℕ → Res (Fin M → K)) (s : IIRState K N M) :
    (iir σ π f).next (source σ src) (iirState σ s) = ((f.next src s).1.map (· ∘ π), iirState σ (f.next src s).2) := by
  have : ∀ n s, (iir σ π f).nextFuel (source σ src) n (iirState σ s) = ((f.nextFuel src n s).1.map (· ∘ π), iirState σ (f.nextFuel src n s).2) := by
    intro n
    induction n with
    | zero => exact fun s => rfl
    | succ n ih =>
      intro s
      unfold IIR.nextFuel
      rw [iir_pass]
      rcases f.pass src s with ⟨r, s'⟩
      cases r with
      | error e => rfl
      | ok o =>
        cases o with
        | none => exact ih s'
        | some v => rfl
  exact this _ s

/-- the batch estimator in the new numbering -/
def batch (f : Batch K N M L) : Batch K N M L := { f with c := coeffs σ π f.c }

/-- its state -/
def batchState (s : BatchState K N M L) : BatchState K N M L := { s with cs := buffer σ s.cs, estimate := fun k => s.estimate k ∘ π }

theorem batch_lookahead (K3 : ℕ) (cs : ℕ → Fin M → K) (m0 : Fin N → K) (i : ℕ) :
    batchLookahead (coeffs σ π c) K3 (buffer σ cs) m0 i = batchLookahead c K3 cs m0 i := by
  induction i with
  | zero => rfl
  | succ i ih =>
    simp only [batchLookahead, ih]
    show _ + c.Bb.submatrix id σ *ᵥ (_ ∘ σ) = _
    rw [mulVec_perm]
    rfl

theorem batch_forward (K1 : ℕ) (cs : ℕ → Fin M → K) (m0 : ℕ → Fin N → K) (i : ℕ) :
    batchForward (coeffs σ π c) K1 (buffer σ cs) m0 i = batchForward c K1 cs m0 i := by
  induction i with
  | zero => rfl
  | succ i ih =>
    simp only [batchForward, ih]
    have e : (coeffs σ π c).Bf *ᵥ buffer σ cs i = c.Bf *ᵥ cs i := mulVec_perm σ c.Bf (cs i)
    rw [e]
    rfl

theorem batch_backward (K1 : ℕ) (cs : ℕ → Fin M → K) (m0 : ℕ → Fin N → K) (est : ℕ → Fin L → K) (i : ℕ) :
    batchBackward (coeffs σ π c) K1 (buffer σ cs) m0 (fun k => est k ∘ π) i =
      ((batchBackward c K1 cs m0 est i).1, fun k => (batchBackward c K1 cs m0 est i).2 k ∘ π) := by
  induction i with
  | zero => rfl
  | succ i ih =>
    simp only [batchBackward, ih]
    have e : ∀ k, (coeffs σ π c).Bb *ᵥ buffer σ cs k = c.Bb *ᵥ cs k := fun k => mulVec_perm σ c.Bb (cs k)
    rw [e]
    refine Prod.ext rfl ?_
    exact Coordinates.update_map (fun v : Fin L → K => v ∘ π) (batchBackward c K1 cs m0 est i).2 (K1 - 1 - i)
      (c.WT *ᵥ (c.Ab *ᵥ (batchBackward c K1 cs m0 est i).1 (K1 - 1 - i + 1) + c.Bb *ᵥ cs (K1 - 1 - i) - (batchBackward c K1 cs m0 est i).1 (K1 - 1 - i)))

theorem batch_compute (f : Batch K N M L) (s : BatchState K N M L) :
    (batch σ π f).computeBatch (batchState σ π s) = (f.computeBatch s).map (batchState σ π) := by
  unfold Batch.computeBatch
  by_cases h1 : s.inBuffer < f.K1 + f.K2
  · simp only [batchState, batch, h1, if_true, Except.map]
  simp only [batchState, batch, h1, if_false, Except.map, batch_lookahead, batch_forward, batch_backward]
  rfl

theorem batch_input (f : Batch K N M L) (s : BatchState K N M L) (v : Fin M → K) :
    (batch σ π f).input (batchState σ π s) (v ∘ σ) = (f.input s v).map fun p => (p.1, batchState σ π p.2) := by
  unfold Batch.input
  by_cases h1 : s.inBuffer = f.K1 + f.K2
  · rw [if_pos h1]
    exact if_pos h1
  · rw [if_neg h1]
    refine (if_neg h1).trans ?_
    have e : Function.update (batchState σ π s).cs (batchState σ π s).inBuffer (valued (v ∘ σ)) = buffer σ (Function.update s.cs s.inBuffer (valued v)) :=
      update_buffer σ s.cs s.inBuffer (valued v)
    rw [e]
    rfl

theorem batch_fill (f : Batch K N M L) (src : ℕ → Res (Fin M → K)) (n : ℕ) (s : BatchState K N M L) :
    (batch σ π f).fill (source σ src) n (batchState σ π s) = ((f.fill src n s).1, batchState σ π (f.fill src n s).2) := by
  induction n generalizing s with
  | zero => rfl
  | succ n ih =>
    have go : ∀ (v : Fin M → K) (s' : BatchState K N M L),
        (match (batch σ π f).input (batchState σ π s') (v ∘ σ) with
          | .error e => ((.error e : Res Unit), batchState σ π s')
          | .ok (full, s'') => if full then (.ok (), s'') else (batch σ π f).fill (source σ src) n s'') =
        ((match f.input s' v with
          | .error e => ((.error e : Res Unit), s')
          | .ok (full, s'') => if full then (.ok (), s'') else f.fill src n s'').1,
          batchState σ π (match f.input s' v with
          | .error e => ((.error e : Res Unit), s')
          | .ok (full, s'') => if full then (.ok (), s'') else f.fill src n s'').2) := by
      intro v s'
      rw [batch_input]
      cases f.input s' v with
      | error e => rfl
      | ok p =>
        obtain ⟨b, s''⟩ := p
        cases b with
        | true => rfl
        | false => exact ih s''
    unfold Batch.fill
    have hc : (batchState σ π s).calls = s.calls := rfl
    simp only [hc]
    unfold source
    cases src s.calls with
    | ok v => exact go v { s with calls := s.calls + 1 }
    | error e =>
      cases e
      case runtimeError => exact go 0 { s with calls := s.calls + 1, stop := true }
      all_goals rfl

theorem batch_next (f : Batch K N M L) (src : ℕ → Res (Fin M → K)) (s : BatchState K N M L) :
    (batch σ π f).next (source σ src) (batchState σ π s) = ((f.next src s).1.map (· ∘ π), batchState σ π (f.next src s).2) := by
  have : ∀ n s, (batch σ π f).nextFuel (source σ src) n (batchState σ π s) =
      ((f.nextFuel src n s).1.map (· ∘ π), batchState σ π (f.nextFuel src n s).2) := by
    intro n
    induction n with
    | zero => exact fun s => rfl
    | succ n ih =>
      intro s
      unfold Batch.nextFuel
      have e1 : (batchState σ π s).iteration = s.iteration := rfl
      have e0 : (batch σ π f).limit = f.limit := rfl
      have e5 : (batch σ π f).K1 = f.K1 := rfl
      have e6 : (batch σ π f).K2 = f.K2 := rfl
      rw [e1, e0]
      by_cases h1 : f.limit < s.iteration
      · rw [if_pos h1, if_pos h1]; rfl
      rw [if_neg h1, if_neg h1]
      have e2 : (batchState σ π s).pointer = s.pointer := rfl
      have e3 : (batchState σ π s).stop = s.stop := rfl
      dsimp only
      rw [e2, e3, e5]
      by_cases h2 : s.pointer < f.K1
      · rw [if_pos h2, if_pos h2]; rfl
      rw [if_neg h2, if_neg h2]
      by_cases h3 : s.stop = true
      · rw [if_pos h3, if_pos h3]; rfl
      rw [if_neg h3, if_neg h3]
      have e4 := batch_fill σ π f src (f.K1 + f.K2 + 1) { s with iteration := s.iteration + 1 }
      erw [e4]
      rcases f.fill src (f.K1 + f.K2 + 1) { s with iteration := s.iteration + 1 } with ⟨r, s2⟩
      cases r with
      | error e => rfl
      | ok u =>
        dsimp only
        rw [batch_compute]
        cases f.computeBatch s2 with
        | error e => rfl
        | ok s3 => exact ih { s3 with pointer := s3.pointer - f.K1 }
  exact this _ s

end estimators

end Cbadc.Numbering
