import Verif.Props.Adaptive

/-!
# C64: the windows LMS training does not see, and the inputs it rejects
-/

namespace Cbadc.Adaptive
open Finset

variable {𝕜 : Type*} [RCLike 𝕜]

omit [RCLike 𝕜] in
private theorem one_sample (x : A3 𝕜) (y : A2 𝕜) (w : (ℕ → ℕ → 𝕜) × (ℕ → 𝕜)) (h : samples x y = [w]) :
    x.n = 1 ∧ x.f 0 = w.1 ∧ (fun l => y.f l 0) = w.2 := by
  have hn : x.n = 1 := by
    have := congrArg List.length h
    simpa [samples] using this
  unfold samples at h
  rw [hn] at h
  simp only [List.range_one, List.map_cons, List.map_nil, List.cons.injEq, and_true] at h
  exact ⟨hn, by rw [← h], by rw [← h]⟩

/-- **C64** is false for the last window: a signal of exactly one window trains nothing at all, however many references and epochs
there are. -/
theorem C64_one_window_false (f : Filter 𝕜) (s y : A2 𝕜) (size epochs : ℕ) (lr mom : ℝ) (delay : ℤ) (perm : ℕ → ℕ → ℕ)
    (hs : 0 < size) (hd : 0 ≤ delay) (hK : s.r - delay.toNat = f.K) : f.lms s y size epochs lr mom delay perm = .ok f := by
  have key : ∀ (n e : ℕ) (x : A3 𝕜) (y : A2 𝕜), x.n = 0 → Filter.lmsEpochs lr mom size perm n e x y f = .ok f := by
    intro n
    induction n with
    | zero => intro e x y _; rfl
    | succ n ih =>
      intro e x y hx
      unfold Filter.lmsEpochs Filter.lmsEpoch
      rw [if_neg (by omega), show (x.shuffle (perm e)).n = 0 from hx]
      exact ih _ _ _ hx
  unfold Filter.lms Filter.prepare batch
  rw [if_neg (by omega)]
  dsimp only
  rw [if_neg (by omega)]
  exact key _ _ _ _ (by simp [hK])

/-- **C64** So there are signals for which no way of batching their windows gives the result of `lms`: with two channels, windows of
one sample, one sample and a reference for it, training does not see the only window. -/
theorem C64_last_window_false : ∃ (f : Filter ℝ) (s y : A2 ℝ) (size : ℕ) (lr mom : ℝ), 0 < size ∧ f.K ≤ s.r ∧ s.c = f.M ∧ y.r = f.L ∧
    s.r - f.K + 1 ≤ y.c ∧
    ¬ ∃ E : List (A3 ℝ × A2 ℝ), (∀ p ∈ E, 0 < p.1.n ∧ p.1.n ≤ size ∧ p.2.c = p.1.n) ∧
      ((E.map fun p => samples p.1 p.2).flatten).Perm (windows s.f y.f 0 (s.r - f.K + 1)) ∧
      f.lms s y size 1 lr mom 0 (fun _ b => b) = E.foldlM (fun f p => f.lmsStep lr mom p.1 p.2) f := by
  refine ⟨Filter.new 2 1 1, ⟨1, 2, fun _ _ => 0⟩, ⟨1, 1, fun _ _ => 1⟩, 1, 1, 0, one_pos, le_refl _, rfl, rfl, le_refl _, ?_⟩
  rintro ⟨E, h1, h2, h3⟩
  rw [C64_one_window_false _ _ _ _ _ _ _ _ _ one_pos (le_refl _) rfl] at h3
  have hw : windows (fun _ _ => (0 : ℝ)) (fun _ _ => (1 : ℝ)) 0 (1 - 1 + 1) = [(fun _ _ => 0, fun _ => 1)] := rfl
  have h2' : ((E.map fun p => samples p.1 p.2).flatten) = [(fun _ _ => 0, fun _ => 1)] := by
    rw [← List.perm_singleton]
    exact h2
  obtain ⟨p, rfl⟩ : ∃ p, E = [p] := by
    cases E with
    | nil => cases h2'
    | cons p E =>
      cases E with
      | nil => exact ⟨p, rfl⟩
      | cons q E =>
        exfalso
        have := congrArg List.length h2'
        simp only [List.map_cons, List.flatten_cons, List.length_append, samples, List.length_map, List.length_range, List.length_cons,
          List.length_nil] at this
        have a := (h1 p (by simp)).1
        have b := (h1 q (by simp)).1
        omega
  simp only [List.map_cons, List.map_nil, List.flatten_cons, List.flatten_nil, List.append_nil] at h2'
  obtain ⟨hn, hx, hy⟩ := one_sample _ _ _ h2'
  have hc := (h1 p (by simp)).2.2
  obtain ⟨x, y⟩ := p
  dsimp only at hn hx hy hc h3
  rw [hn] at hc
  simp only [List.foldlM_cons, List.foldlM_nil, bind_pure] at h3
  have h00 : y.f 0 0 = 1 := congrFun hy 0
  unfold Filter.lmsStep Filter.gradient Filter.error Filter.call at h3
  by_cases hm : x.m ≠ (Filter.new 2 1 1 : Filter ℝ).M ∨ x.k ≠ (Filter.new 2 1 1 : Filter ℝ).K
  · rw [if_pos hm] at h3
    cases h3
  · rw [if_neg hm] at h3
    by_cases hr : y.r = 1
    · simp [Filter.new, Filter.offArr, A2.bop, bdim, A2.T, hn, hr, hc, h00] at h3
      have := congrFun h3.2.2.1 0
      simp at this
    · simp [Filter.new, Filter.offArr, A2.bop, bdim, A2.T, hn, hr, hc] at h3

/-- **C64** What `lms` rejects: negative delays, signals shorter than a window, and a batch size of zero. -/
theorem C64_reject (f : Filter 𝕜) (s y : A2 𝕜) (size epochs : ℕ) (lr mom : ℝ) (delay : ℤ) (perm : ℕ → ℕ → ℕ) :
    (delay < 0 ∨ s.r - delay.toNat < f.K ∨ (size = 0 ∧ 0 < epochs)) → f.lms s y size epochs lr mom delay perm = .error .valueError := by
  intro h
  unfold Filter.lms Filter.prepare
  by_cases hd : delay < 0
  · rw [if_pos hd]
  · rw [if_neg hd]
    unfold batch
    dsimp only
    by_cases hk : s.r - delay.toNat < f.K
    · rw [if_pos hk]
    · rw [if_neg hk]
      obtain ⟨rfl, he⟩ := (h.resolve_left hd).resolve_left hk
      obtain ⟨n, rfl⟩ := Nat.exists_eq_succ_of_ne_zero he.ne'
      rfl

example : (Filter.new 2 3 1 : Filter ℝ).lms ⟨4, 2, fun _ _ => 0⟩ ⟨1, 4, fun _ _ => 1⟩ 1 2 1 0 2 (fun _ b => b) = .error .valueError :=
  C64_reject _ _ _ _ _ _ _ _ _ (Or.inr (Or.inl (by simp [Filter.new])))

example : (Filter.new 2 3 1 : Filter ℝ).lms ⟨5, 2, fun _ _ => 0⟩ ⟨1, 4, fun _ _ => 1⟩ 0 2 1 0 2 (fun _ b => b) = .error .valueError :=
  C64_reject _ _ _ _ _ _ _ _ _ (Or.inr (Or.inr ⟨rfl, by norm_num⟩))

end Cbadc.Adaptive
