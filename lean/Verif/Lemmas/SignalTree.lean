import Mathlib.Data.Set.Finite.Lattice
import Mathlib.Data.Set.Finite.Lemmas
import Mathlib.Algebra.BigOperators.Group.Finset.Basic
import Mathlib.Algebra.BigOperators.Intervals
import Verif.Spec.SignalTree
import Verif.Model.SignalTree

/-! # Lemmas about combinations of signals -/

namespace Cbadc.Signal

open Classical

/-- `signal(t)` is `evaluate` unless the signal is a held sample. -/
def Sig.Callable (s : Sig) (h : Heap) : Prop := ∀ i z, s = .obj i → h i ≠ .zoh z

theorem Obj.call_eq {o : Obj} (ho : ∀ z, o ≠ .zoh z) (t : ℝ) : o.call t = o.evaluate t := by
  cases o with
  | zoh z => exact absurd rfl (ho z)
  | _ => rfl

theorem Sig.sumLoop_cons {s : Sig} {h : Heap} (hs : s.Callable h) (l : List Sig) (t res : ℝ) :
    Sig.sumLoop (s :: l) t res h = match s.evaluate t h with
      | (.error e, h) => (.error e, h)
      | (.ok v, h) => Sig.sumLoop l t (res + v) h := by
  cases s with
  | obj i =>
    rw [Sig.sumLoop, Obj.call_eq (fun z => hs i z rfl), Sig.evaluate]
    rcases hv : (h i).evaluate t with ⟨e | v, o⟩ <;> rfl
  | _ =>
    rw [Sig.sumLoop]
    · rfl
    · intro i hi; cases hi

theorem Sig.mulLoop_cons {s : Sig} {h : Heap} (hs : s.Callable h) (l : List Sig) (t res : ℝ) :
    Sig.mulLoop (s :: l) t res h = match s.evaluate t h with
      | (.error e, h) => (.error e, h)
      | (.ok v, h) => Sig.mulLoop l t (res * v) h := by
  cases s with
  | obj i =>
    rw [Sig.mulLoop, Obj.call_eq (fun z => hs i z rfl), Sig.evaluate]
    rcases hv : (h i).evaluate t with ⟨e | v, o⟩ <;> rfl
  | _ =>
    rw [Sig.mulLoop]
    · rfl
    · intro i hi; cases hi

theorem Sig.sumLoop_eq (l : List Sig) (t : ℝ) (h : ℕ → Heap) (v : ℕ → ℝ)
    (hc : ∀ k (hk : k < l.length), (l[k]).Callable (h k))
    (hv : ∀ k (hk : k < l.length), (l[k]).evaluate t (h k) = (.ok (v k), h (k + 1))) (res : ℝ) :
    Sig.sumLoop l t res (h 0) = (.ok (res + ∑ k ∈ Finset.range l.length, v k), h l.length) := by
  induction l generalizing h v res with
  | nil => simp [Sig.sumLoop]
  | cons s l ih =>
    rw [Sig.sumLoop_cons (s := s) (hc 0 (by simp))]
    have h0 := hv 0 (by simp)
    simp only [List.getElem_cons_zero] at h0
    rw [h0]
    dsimp only
    rw [ih (fun k => h (k + 1)) (fun k => v (k + 1)) (fun k hk => hc (k + 1) (by simpa using hk))
      (fun k hk => hv (k + 1) (by simpa using hk))]
    rw [List.length_cons, Finset.sum_range_succ', add_assoc, add_comm (v 0)]

theorem Sig.mulLoop_eq (l : List Sig) (t : ℝ) (h : ℕ → Heap) (v : ℕ → ℝ)
    (hc : ∀ k (hk : k < l.length), (l[k]).Callable (h k))
    (hv : ∀ k (hk : k < l.length), (l[k]).evaluate t (h k) = (.ok (v k), h (k + 1))) (res : ℝ) :
    Sig.mulLoop l t res (h 0) = (.ok (res * ∏ k ∈ Finset.range l.length, v k), h l.length) := by
  induction l generalizing h v res with
  | nil => simp [Sig.mulLoop]
  | cons s l ih =>
    rw [Sig.mulLoop_cons (s := s) (hc 0 (by simp))]
    have h0 := hv 0 (by simp)
    simp only [List.getElem_cons_zero] at h0
    rw [h0]
    dsimp only
    rw [ih (fun k => h (k + 1)) (fun k => v (k + 1)) (fun k hk => hc (k + 1) (by simpa using hk))
      (fun k hk => hv (k + 1) (by simpa using hk))]
    rw [List.length_cons, Finset.prod_range_succ', mul_assoc, mul_comm (v 0)]

mutual
theorem Sig.stateless_evaluate : ∀ (s : Sig), Spec.Stateless s → ∀ t h h',
    (s.evaluate t h).2 = h ∧ (s.evaluate t h).1 = (s.evaluate t h').1
  | .base, _, _, _, _ => by simp [Sig.evaluate]
  | .constant _, _, _, _, _ => by simp [Sig.evaluate]
  | .sinusoidal _ _ _ _, _, _, _, _ => by simp [Sig.evaluate]
  | .sinc _ _ _ _, _, _, _, _ => by simp [Sig.evaluate]
  | .ramp _, _, _, _, _ => by simp [Sig.evaluate]
  | .clock _, _, _, _, _ => by simp [Sig.evaluate]
  | .step _ _, _, _, _, _ => by simp [Sig.evaluate]
  | .nrz _ _ _, _, _, _, _ => by simp [Sig.evaluate]
  | .rc _ _ _, _, _, _, _ => by simp [Sig.evaluate]
  | .obj _, hs, _, _, _ => by simp [Spec.Stateless] at hs
  | .add l, hs, t, h, h' => by
    rw [Sig.evaluate, Sig.evaluate]
    exact Sig.stateless_sumLoop l (by simpa [Spec.Stateless] using hs) t 0 h h'
  | .mul l, hs, t, h, h' => by
    rw [Sig.evaluate, Sig.evaluate]
    exact Sig.stateless_mulLoop l (by simpa [Spec.Stateless] using hs) t 1 h h'
  | .quad a w p i q, hs, t, h, h' => by
    rw [Spec.Stateless] at hs
    have hi := Sig.stateless_evaluate i hs.1 t h h'
    have hi' := Sig.stateless_evaluate i hs.1 t h' h'
    have hq := Sig.stateless_evaluate q hs.2 t h h'
    have hq' := Sig.stateless_evaluate q hs.2 t h' h'
    rw [Sig.evaluate, Sig.evaluate]
    rcases h1 : i.evaluate t h with ⟨v1, g1⟩
    rcases h2 : i.evaluate t h' with ⟨v2, g2⟩
    rw [h1, h2] at hi
    rw [h2] at hi'
    obtain ⟨rfl, rfl⟩ := hi
    obtain ⟨rfl, -⟩ := hi'
    rcases v1 with e | v1
    · exact ⟨rfl, rfl⟩
    rcases h3 : q.evaluate t g1 with ⟨v3, g3⟩
    rcases h4 : q.evaluate t g2 with ⟨v4, g4⟩
    rw [h3, h4] at hq
    rw [h4] at hq'
    obtain ⟨rfl, rfl⟩ := hq
    rcases v3 with e | v3 <;> dsimp only <;> simp only [h3, h4, and_self]
  | .modulator i q f, hs, t, h, h' => by
    rw [Spec.Stateless] at hs
    have hi := Sig.stateless_evaluate i hs.1 t h h'
    have hi' := Sig.stateless_evaluate i hs.1 t h' h'
    have hq := Sig.stateless_evaluate q hs.2 t h h'
    have hq' := Sig.stateless_evaluate q hs.2 t h' h'
    rw [Sig.evaluate, Sig.evaluate]
    rcases h1 : i.evaluate t h with ⟨v1, g1⟩
    rcases h2 : i.evaluate t h' with ⟨v2, g2⟩
    rw [h1, h2] at hi
    rw [h2] at hi'
    obtain ⟨rfl, rfl⟩ := hi
    obtain ⟨rfl, -⟩ := hi'
    rcases v1 with e | v1
    · exact ⟨rfl, rfl⟩
    rcases h3 : q.evaluate t g1 with ⟨v3, g3⟩
    rcases h4 : q.evaluate t g2 with ⟨v4, g4⟩
    rw [h3, h4] at hq
    rw [h4] at hq'
    obtain ⟨rfl, rfl⟩ := hq
    rcases v3 with e | v3 <;> dsimp only <;> simp only [h3, h4, and_self]
theorem Sig.stateless_sumLoop : ∀ (l : List Sig), Spec.StatelessAll l → ∀ t res h h',
    (Sig.sumLoop l t res h).2 = h ∧ (Sig.sumLoop l t res h).1 = (Sig.sumLoop l t res h').1
  | [], _, _, _, _, _ => by simp [Sig.sumLoop]
  | s :: l, hs, t, res, h, h' => by
    rw [Spec.StatelessAll] at hs
    have hne : ∀ h, s.Callable h := fun h i z hi => by
      rw [hi] at hs
      simp [Spec.Stateless] at hs
    have h1 := Sig.stateless_evaluate s hs.1 t h h'
    have h2 := Sig.stateless_evaluate s hs.1 t h' h'
    rw [Sig.sumLoop_cons (hne h), Sig.sumLoop_cons (hne h')]
    rcases e1 : s.evaluate t h with ⟨v1, g1⟩
    rcases e2 : s.evaluate t h' with ⟨v2, g2⟩
    rw [e1, e2] at h1
    rw [e2] at h2
    obtain ⟨rfl, rfl⟩ := h1
    obtain ⟨rfl, -⟩ := h2
    rcases v1 with e | v1
    · exact ⟨rfl, rfl⟩
    · exact Sig.stateless_sumLoop l hs.2 t _ g1 g2
theorem Sig.stateless_mulLoop : ∀ (l : List Sig), Spec.StatelessAll l → ∀ t res h h',
    (Sig.mulLoop l t res h).2 = h ∧ (Sig.mulLoop l t res h).1 = (Sig.mulLoop l t res h').1
  | [], _, _, _, _, _ => by simp [Sig.mulLoop]
  | s :: l, hs, t, res, h, h' => by
    rw [Spec.StatelessAll] at hs
    have hne : ∀ h, s.Callable h := fun h i z hi => by
      rw [hi] at hs
      simp [Spec.Stateless] at hs
    have h1 := Sig.stateless_evaluate s hs.1 t h h'
    have h2 := Sig.stateless_evaluate s hs.1 t h' h'
    rw [Sig.mulLoop_cons (hne h), Sig.mulLoop_cons (hne h')]
    rcases e1 : s.evaluate t h with ⟨v1, g1⟩
    rcases e2 : s.evaluate t h' with ⟨v2, g2⟩
    rw [e1, e2] at h1
    rw [e2] at h2
    obtain ⟨rfl, rfl⟩ := h1
    obtain ⟨rfl, -⟩ := h2
    rcases v1 with e | v1
    · exact ⟨rfl, rfl⟩
    · exact Sig.stateless_mulLoop l hs.2 t _ g1 g2
end

/-- What the loop over the flags computes. -/
theorem Sig.flagLoop_true : ∀ (l : List Sig) (h : Heap) (b : Bool), Sig.flagLoop l h b = .ok (some true) ↔
    b = true ∧ ∀ s ∈ l, s.construct h = .ok (some true)
  | [], h, b => by simp [Sig.flagLoop]
  | s :: l, h, b => by
    rw [Sig.flagLoop]
    rcases hs : s.construct h with e | f
    · simp [hs]
    rcases f with _ | p
    · simp [hs]
    cases p
    · dsimp only
      rw [if_neg (by simp), Sig.flagLoop_true l h false]
      simp [hs]
    · dsimp only
      rw [if_pos rfl, Sig.flagLoop_true l h b]
      simp [hs]

mutual
theorem Sig.finite_values : ∀ (s : Sig), Spec.Stateless s → Spec.NoRC s → ∀ h,
    s.construct h = .ok (some true) → {r | ∃ t, (s.evaluate t h).1 = r}.Finite
  | .base, _, _, _, hf => by simp [Sig.construct] at hf
  | .constant c, _, _, _, _ => by
    refine (Set.finite_singleton (Except.ok c : Res ℝ)).subset ?_
    rintro r ⟨t, rfl⟩
    simp [Sig.evaluate]
  | .sinusoidal _ _ _ _, _, _, _, hf => by simp [Sig.construct] at hf
  | .sinc _ _ _ _, _, _, _, hf => by simp [Sig.construct] at hf
  | .ramp _, _, _, _, hf => by simp [Sig.construct] at hf
  | .clock _, _, _, _, hf => by simp [Sig.construct] at hf
  | .step t0 a, _, _, _, _ => by
    refine (Set.toFinite {(Except.ok a : Res ℝ), Except.ok 0}).subset ?_
    rintro r ⟨t, rfl⟩
    simp only [Sig.evaluate, stepEval]
    split <;> simp
  | .nrz t0 t1 a, _, _, _, _ => by
    refine (Set.toFinite {(Except.ok a : Res ℝ), Except.ok 0}).subset ?_
    rintro r ⟨t, rfl⟩
    simp only [Sig.evaluate, nrzEval, stepEval]
    split
    · split <;> simp
    · simp
  | .rc _ _ _, _, hn, _, _ => by simp [Spec.NoRC] at hn
  | .obj _, hs, _, _, _ => by simp [Spec.Stateless] at hs
  | .add l, hs, hn, h, hf => by
    rw [Spec.Stateless] at hs
    rw [Spec.NoRC] at hn
    rw [Sig.construct, Sig.flagLoop_true] at hf
    refine (Sig.finite_sum l hs hn h hf.2 {0} (Set.finite_singleton _)).subset ?_
    rintro r ⟨t, rfl⟩
    exact ⟨t, 0, rfl, by rw [Sig.evaluate]⟩
  | .mul l, hs, hn, h, hf => by
    rw [Spec.Stateless] at hs
    rw [Spec.NoRC] at hn
    rw [Sig.construct, Sig.flagLoop_true] at hf
    refine (Sig.finite_prod l hs hn h hf.2 {1} (Set.finite_singleton _)).subset ?_
    rintro r ⟨t, rfl⟩
    exact ⟨t, 1, rfl, by rw [Sig.evaluate]⟩
  | .quad a w p i q, _, _, h, hf => by
    rw [Sig.construct] at hf
    rcases hi : i.construct h with e | f <;> rcases hq : q.construct h with e' | f' <;> simp [hi, hq] at hf
  | .modulator i q f, _, _, h, hf => by
    rw [Sig.construct] at hf
    rcases hi : i.construct h with e | f <;> rcases hq : q.construct h with e' | f' <;> simp [hi, hq] at hf
theorem Sig.finite_sum : ∀ (l : List Sig), Spec.StatelessAll l → Spec.NoRCAll l → ∀ h,
    (∀ s ∈ l, s.construct h = .ok (some true)) → ∀ S : Set ℝ, S.Finite →
    {r | ∃ t, ∃ res ∈ S, (Sig.sumLoop l t res h).1 = r}.Finite
  | [], _, _, h, _, S, hS => by
    refine (hS.image (fun x => (Except.ok x : Res ℝ))).subset ?_
    rintro r ⟨t, res, hres, rfl⟩
    exact ⟨res, hres, by simp [Sig.sumLoop]⟩
  | s :: l, hs, hn, h, hf, S, hS => by
    rw [Spec.StatelessAll] at hs
    rw [Spec.NoRCAll] at hn
    have h1 := Sig.finite_values s hs.1 hn.1 h (hf s (by simp))
    have hV : {v : ℝ | ∃ t, (s.evaluate t h).1 = .ok v}.Finite := by
      refine Set.Finite.of_finite_image (f := fun v => (Except.ok v : Res ℝ)) (h1.subset ?_) ?_
      · rintro _ ⟨v, ⟨t, ht⟩, rfl⟩
        exact ⟨t, ht⟩
      · intro a _ b _ hab
        exact Except.ok.inj hab
    have h2 := Sig.finite_sum l hs.2 hn.2 h (fun s hs => hf s (by simp [hs])) _
      (Set.Finite.image2 (fun a b => a + b) hS hV)
    refine (h1.union h2).subset ?_
    rintro r ⟨t, res, hres, rfl⟩
    have hne : s.Callable h := fun i z hi => by
      rw [hi] at hs
      simp [Spec.Stateless] at hs
    have hst := (Sig.stateless_evaluate s hs.1 t h h).1
    rw [Sig.sumLoop_cons hne]
    rcases e1 : s.evaluate t h with ⟨v1, g1⟩
    rw [e1] at hst
    dsimp only at hst
    subst hst
    rcases v1 with e | v
    · left; exact ⟨t, by rw [e1]⟩
    · right; exact ⟨t, res + v, ⟨res, hres, v, ⟨t, by rw [e1]⟩, rfl⟩, rfl⟩
theorem Sig.finite_prod : ∀ (l : List Sig), Spec.StatelessAll l → Spec.NoRCAll l → ∀ h,
    (∀ s ∈ l, s.construct h = .ok (some true)) → ∀ S : Set ℝ, S.Finite →
    {r | ∃ t, ∃ res ∈ S, (Sig.mulLoop l t res h).1 = r}.Finite
  | [], _, _, h, _, S, hS => by
    refine (hS.image (fun x => (Except.ok x : Res ℝ))).subset ?_
    rintro r ⟨t, res, hres, rfl⟩
    exact ⟨res, hres, by simp [Sig.mulLoop]⟩
  | s :: l, hs, hn, h, hf, S, hS => by
    rw [Spec.StatelessAll] at hs
    rw [Spec.NoRCAll] at hn
    have h1 := Sig.finite_values s hs.1 hn.1 h (hf s (by simp))
    have hV : {v : ℝ | ∃ t, (s.evaluate t h).1 = .ok v}.Finite := by
      refine Set.Finite.of_finite_image (f := fun v => (Except.ok v : Res ℝ)) (h1.subset ?_) ?_
      · rintro _ ⟨v, ⟨t, ht⟩, rfl⟩
        exact ⟨t, ht⟩
      · intro a _ b _ hab
        exact Except.ok.inj hab
    have h2 := Sig.finite_prod l hs.2 hn.2 h (fun s hs => hf s (by simp [hs])) _
      (Set.Finite.image2 (fun a b => a * b) hS hV)
    refine (h1.union h2).subset ?_
    rintro r ⟨t, res, hres, rfl⟩
    have hne : s.Callable h := fun i z hi => by
      rw [hi] at hs
      simp [Spec.Stateless] at hs
    have hst := (Sig.stateless_evaluate s hs.1 t h h).1
    rw [Sig.mulLoop_cons hne]
    rcases e1 : s.evaluate t h with ⟨v1, g1⟩
    rw [e1] at hst
    dsimp only at hst
    subst hst
    rcases v1 with e | v
    · left; exact ⟨t, by rw [e1]⟩
    · right; exact ⟨t, res * v, ⟨res, hres, v, ⟨t, by rw [e1]⟩, rfl⟩, rfl⟩
end

end Cbadc.Signal
