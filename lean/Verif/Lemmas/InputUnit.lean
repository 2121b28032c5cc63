import Verif.Spec.InputUnit
import Verif.Lemmas.Simulator

/-! # Lemmas: the unit of the input (C152) -/

namespace Cbadc.InputUnit

open Matrix Finset Cbadc.Analog Cbadc.Control Cbadc.Simulate Cbadc.Estimator Cbadc.Streams

section simulation
variable {M : ℕ} {b : ℝ}

theorem dot_unit (hb : b ≠ 0) (n : ℕ) (X : ℕ → ℕ → ℝ) (u : ℕ → ℝ) : dot n (fun i l => b * X i l) (fun l => u l / b) = dot n X u := by
  funext i
  exact sum_congr rfl fun l _ => by field_simp

theorem npDot_unit (hb : b ≠ 0) (m n : ℕ) (X : ℕ → ℕ → ℝ) (k : ℕ) (u : ℕ → ℝ) :
    npDot m n (fun i l => b * X i l) ⟨k, fun l => u l / b⟩ = npDot m n X ⟨k, u⟩ := by
  unfold npDot
  rw [dot_unit hb]

theorem decided (hb : b ≠ 0) (c : Cfg M) (s : St M) : (cfg b c).decide s = c.decide s := by
  have hu : (cfg b c).u0 s = ⟨c.sys.L, fun l => (c.u0 s).v l / b⟩ := by
    unfold Cfg.u0
    show Vec.mk c.sys.L (fun l => if c.hasInput then c.input s.ticks (0 + s.t) l / b else 0) = _
    congr 1
    funext l
    dsimp only
    by_cases h : c.hasInput
    · rw [if_pos h, if_pos h]
    · rw [if_neg h, if_neg h, zero_div]
  have e : (cfg b c).sys.controlObservation ⟨c.sys.N, s.x⟩ (some ⟨c.sys.L, fun l => (c.u0 s).v l / b⟩) =
      c.sys.controlObservation ⟨c.sys.N, s.x⟩ (some (c.u0 s)) := by
    funext w
    unfold Sys.controlObservation
    dsimp only [cfg]
    rw [npDot_unit hb]
    rfl
  unfold Cfg.decide
  rw [hu]
  show (match (cfg b c).sys.controlObservation ⟨c.sys.N, s.x⟩ (some ⟨c.sys.L, fun l => (c.u0 s).v l / b⟩) _ with | .error e => _ | .ok y => _) = _
  rw [e]
  rfl

theorem rhs (hb : b ≠ 0) (c : Cfg M) (s : St M) (e : State ℝ M) (τ : ℝ) (y : ℕ → ℝ) : (cfg b c).rhs s e τ y = c.rhs s e τ y := by
  unfold Cfg.rhs
  by_cases h : c.hasInput
  · rw [if_pos (show (cfg b c).hasInput = true from h), if_pos h]
    unfold Sys.derivative
    dsimp only [cfg]
    rw [npDot_unit hb]
  · rw [if_neg (show ¬(cfg b c).hasInput = true from h), if_neg h]
    rfl

theorem period (hb : b ≠ 0) (c : Cfg M) (s s' : St M) (φ : ℝ → ℕ → ℝ) : Period (cfg b c) s φ s' ↔ Period c s φ s' := by
  constructor
  · intro h
    refine ⟨(decided hb c s).symm.trans h.dec, h.start, h.cont, fun τ hτ => ?_, h.stop, h.ticks, h.time⟩
    obtain ⟨d, h1, h2⟩ := h.ode τ hτ
    exact ⟨d, (rhs hb c s _ τ _).symm.trans h1, h2⟩
  · intro h
    refine ⟨(decided hb c s).trans h.dec, h.start, h.cont, fun τ hτ => ?_, h.stop, h.ticks, h.time⟩
    obtain ⟨d, h1, h2⟩ := h.ode τ hτ
    exact ⟨d, (rhs hb c s _ τ _).trans h1, h2⟩

end simulation

/-! ### Estimators -/

/-- two iterators whose states and results correspond -/
theorem call_map {V W S S' : Type*} (next : S → Res V × S) (next' : S' → Res W × S') (f : S → S') (g : V → W)
    (h : ∀ s, next' (f s) = ((next s).1.map g, f (next s).2)) (s0 : S) (k : ℕ) : call next' (f s0) k = (call next s0 k).map g := by
  have e : stateAfter next' (f s0) k = f (stateAfter next s0 k) := by
    induction k with
    | zero => rfl
    | succ k ih => show (next' (stateAfter next' (f s0) k)).2 = _; rw [ih, h]; rfl
  unfold call
  rw [e, h]

section estimators
variable {K : Type*} [Field K] {N M L : ℕ} (a : K) (c : Coeffs K N M L)

theorem update_smul {V : Type*} [AddCommGroup V] [Module K V] (f : ℕ → V) (i : ℕ) (v : V) :
    Function.update (fun k => a • f k) i (a • v) = fun k => a • Function.update f i v k := by
  funext k
  by_cases h : k = i
  · subst h; simp
  · simp [Function.update_of_ne h]

theorem firLookback_eq (K1 i : ℕ) : firLookback { c with WT := a • c.WT } K1 i = (fun k => a • (firLookback c K1 i).1 k, (firLookback c K1 i).2) := by
  induction i with
  | zero => simp [firLookback]
  | succ i ih =>
    simp only [firLookback, ih]
    rw [Matrix.smul_mul, ← smul_neg, update_smul]

theorem firLookahead_eq (K1 : ℕ) (h0 : ℕ → Matrix (Fin L) (Fin M) K) (i : ℕ) :
    firLookahead { c with WT := a • c.WT } K1 (fun k => a • h0 k) i = (fun k => a • (firLookahead c K1 h0 i).1 k, (firLookahead c K1 h0 i).2) := by
  induction i with
  | zero => rfl
  | succ i ih =>
    simp only [firLookahead, ih]
    rw [Matrix.smul_mul, update_smul]

theorem firTaps_eq (K1 K2 : ℕ) : firTaps { c with WT := a • c.WT } K1 K2 = fun k => a • firTaps c K1 K2 k := by
  unfold firTaps
  rw [firLookback_eq, firLookahead_eq]

theorem iirLookahead_eq (i : ℕ) : iirLookahead { c with WT := a • c.WT } i = (fun k => a • (iirLookahead c i).1 k, (iirLookahead c i).2) := by
  induction i with
  | zero => simp [iirLookahead]
  | succ i ih =>
    simp only [iirLookahead, ih]
    rw [Matrix.smul_mul, update_smul]

theorem tensordot_smul (n : ℕ) (h : ℕ → Matrix (Fin L) (Fin M) K) (buf : ℕ → Fin M → K) :
    tensordot n (fun k => a • h k) buf = a • tensordot n h buf := by
  funext l
  simp only [tensordot, Pi.smul_apply, Matrix.smul_apply, smul_eq_mul, mul_sum, mul_assoc]

theorem fir_next (f : FIR K M L) (src : ℕ → Res (Fin M → K)) (st : FIRState K M) :
    FIR.next { f with h := fun k => a • f.h k, offset := a • f.offset } src st = ((f.next src st).1.map (a • ·), (f.next src st).2) := by
  unfold FIR.next
  dsimp only
  by_cases h1 : f.limit ≠ 0 ∧ f.limit < st.iteration + f.ds
  · rw [if_pos h1, if_pos h1]; rfl
  rw [if_neg h1, if_neg h1]
  rcases firPull src st.calls f.ds with ⟨r, k⟩
  cases r with
  | error e => cases e <;> rfl
  | ok rows =>
    dsimp only
    by_cases h2 : f.K1 + f.K2 < f.ds
    · rw [if_pos h2, if_pos h2]; rfl
    rw [if_neg h2, if_neg h2, tensordot_smul, ← smul_add]
    rfl

theorem iir_pass (f : IIR K N M L) (src : ℕ → Res (Fin M → K)) (st : IIRState K N M) :
    IIR.pass { f with c := { f.c with WT := a • f.c.WT }, h := fun k => a • f.h k } src st =
      ((f.pass src st).1.map (Option.map (a • ·)), (f.pass src st).2) := by
  unfold IIR.pass
  dsimp only
  by_cases h1 : f.limit ≠ 0 ∧ f.limit < st.iteration + 1
  · rw [if_pos h1, if_pos h1]; rfl
  rw [if_neg h1, if_neg h1]
  cases src st.calls with
  | error e => cases e <;> rfl
  | ok s =>
    dsimp only
    by_cases h2 : f.K2 = 0
    · rw [if_pos h2, if_pos h2]; rfl
    rw [if_neg h2, if_neg h2]
    by_cases h3 : f.ds = 0
    · rw [if_pos h3, if_pos h3]; rfl
    rw [if_neg h3, if_neg h3]
    by_cases h4 : (st.iteration + 1 - 1) % f.ds = 0
    · rw [if_pos h4, if_pos h4, tensordot_smul, smul_mulVec, ← smul_neg, ← smul_add]; rfl
    · rw [if_neg h4, if_neg h4]; rfl

theorem iir_next (f : IIR K N M L) (src : ℕ → Res (Fin M → K)) (st : IIRState K N M) :
    IIR.next { f with c := { f.c with WT := a • f.c.WT }, h := fun k => a • f.h k } src st = ((f.next src st).1.map (a • ·), (f.next src st).2) := by
  have : ∀ n st, IIR.nextFuel { f with c := { f.c with WT := a • f.c.WT }, h := fun k => a • f.h k } src n st =
      ((f.nextFuel src n st).1.map (a • ·), (f.nextFuel src n st).2) := by
    intro n
    induction n with
    | zero => exact fun st => rfl
    | succ n ih =>
      intro st
      unfold IIR.nextFuel
      rw [iir_pass]
      rcases f.pass src st with ⟨r, st'⟩
      cases r with
      | error e => rfl
      | ok o =>
        cases o with
        | none => exact ih st'
        | some v => rfl
  exact this _ st

/-- the state of the batch estimator in the new unit -/
def batchState (st : BatchState K N M L) : BatchState K N M L := { st with estimate := fun k => a • st.estimate k }

theorem lookahead_eq (K3 : ℕ) (cs : ℕ → Fin M → K) (m0 : Fin N → K) (i : ℕ) :
    batchLookahead { c with WT := a • c.WT } K3 cs m0 i = batchLookahead c K3 cs m0 i := by
  induction i with
  | zero => rfl
  | succ i ih => simp only [batchLookahead, ih]

theorem forward_eq (K1 : ℕ) (cs : ℕ → Fin M → K) (m0 : ℕ → Fin N → K) (i : ℕ) :
    batchForward { c with WT := a • c.WT } K1 cs m0 i = batchForward c K1 cs m0 i := by
  induction i with
  | zero => rfl
  | succ i ih => simp only [batchForward, ih]

theorem backward_eq (K1 : ℕ) (cs : ℕ → Fin M → K) (m0 : ℕ → Fin N → K) (est : ℕ → Fin L → K) (i : ℕ) :
    batchBackward { c with WT := a • c.WT } K1 cs m0 (fun k => a • est k) i =
      ((batchBackward c K1 cs m0 est i).1, fun k => a • (batchBackward c K1 cs m0 est i).2 k) := by
  induction i with
  | zero => rfl
  | succ i ih =>
    simp only [batchBackward, ih]
    rw [smul_mulVec, update_smul]

theorem batch_compute (f : Batch K N M L) (st : BatchState K N M L) :
    Batch.computeBatch { f with c := { f.c with WT := a • f.c.WT } } (batchState a st) = (f.computeBatch st).map (batchState a) := by
  unfold Batch.computeBatch
  by_cases h1 : st.inBuffer < f.K1 + f.K2
  · simp only [batchState, h1, if_true, Except.map]
  · simp only [batchState, h1, if_false, Except.map, lookahead_eq, forward_eq, backward_eq]

theorem batch_input (f : Batch K N M L) (st : BatchState K N M L) (s : Fin M → K) :
    Batch.input { f with c := { f.c with WT := a • f.c.WT } } (batchState a st) s = (f.input st s).map fun p => (p.1, batchState a p.2) := by
  unfold Batch.input
  by_cases h1 : st.inBuffer = f.K1 + f.K2
  · rw [if_pos h1]
    exact if_pos h1
  · rw [if_neg h1]
    exact if_neg h1

theorem batch_fill (f : Batch K N M L) (src : ℕ → Res (Fin M → K)) (n : ℕ) (st : BatchState K N M L) :
    Batch.fill { f with c := { f.c with WT := a • f.c.WT } } src n (batchState a st) = ((f.fill src n st).1, batchState a (f.fill src n st).2) := by
  induction n generalizing st with
  | zero => rfl
  | succ n ih =>
    have go : ∀ (s : Fin M → K) (st' : BatchState K N M L),
        (match Batch.input { f with c := { f.c with WT := a • f.c.WT } } (batchState a st') s with
          | .error e => ((.error e : Res Unit), batchState a st')
          | .ok (full, st'') => if full then (.ok (), st'') else Batch.fill { f with c := { f.c with WT := a • f.c.WT } } src n st'') =
        ((match f.input st' s with
          | .error e => ((.error e : Res Unit), st')
          | .ok (full, st'') => if full then (.ok (), st'') else Batch.fill f src n st'').1,
          batchState a (match f.input st' s with
          | .error e => ((.error e : Res Unit), st')
          | .ok (full, st'') => if full then (.ok (), st'') else Batch.fill f src n st'').2) := by
      intro s st'
      rw [batch_input]
      cases f.input st' s with
      | error e => rfl
      | ok p =>
        obtain ⟨b, st''⟩ := p
        cases b with
        | true => rfl
        | false => exact ih st''
    unfold Batch.fill
    have hc : (batchState a st).calls = st.calls := rfl
    simp only [hc]
    cases src st.calls with
    | ok s => exact go s { st with calls := st.calls + 1 }
    | error e =>
      cases e
      case runtimeError => exact go 0 { st with calls := st.calls + 1, stop := true }
      all_goals rfl

theorem batch_next (f : Batch K N M L) (src : ℕ → Res (Fin M → K)) (st : BatchState K N M L) :
    Batch.next { f with c := { f.c with WT := a • f.c.WT } } src (batchState a st) =
      ((f.next src st).1.map (a • ·), batchState a (f.next src st).2) := by
  have : ∀ n st, Batch.nextFuel { f with c := { f.c with WT := a • f.c.WT } } src n (batchState a st) =
      ((f.nextFuel src n st).1.map (a • ·), batchState a (f.nextFuel src n st).2) := by
    intro n
    induction n with
    | zero => exact fun st => rfl
    | succ n ih =>
      intro st
      unfold Batch.nextFuel
      have e1 : (batchState a st).iteration = st.iteration := rfl
      rw [e1]
      by_cases h1 : f.limit < st.iteration
      · rw [if_pos h1, if_pos h1]; rfl
      rw [if_neg h1, if_neg h1]
      have e2 : (batchState a st).pointer = st.pointer := rfl
      have e3 : (batchState a st).stop = st.stop := rfl
      dsimp only
      rw [e2, e3]
      by_cases h2 : st.pointer < f.K1
      · rw [if_pos h2, if_pos h2]; rfl
      rw [if_neg h2, if_neg h2]
      by_cases h3 : st.stop = true
      · rw [if_pos h3, if_pos h3]; rfl
      rw [if_neg h3, if_neg h3]
      have e4 := batch_fill a f src (f.K1 + f.K2 + 1) { st with iteration := st.iteration + 1 }
      erw [e4]
      rcases f.fill src (f.K1 + f.K2 + 1) { st with iteration := st.iteration + 1 } with ⟨r, st2⟩
      cases r with
      | error e => rfl
      | ok u =>
        dsimp only
        rw [batch_compute]
        cases f.computeBatch st2 with
        | error e => rfl
        | ok st3 => exact ih { st3 with pointer := st3.pointer - f.K1 }
  exact this _ st

end estimators

end Cbadc.InputUnit
