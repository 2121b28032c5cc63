import Verif.Lemmas.Zpk

/-! # Zero-pole-gain realisation of conjugate patterns (C26) -/

namespace Cbadc.Analog
open Spec Complex

/-- `zpk2abcd` on poles and zeros whose sorted lists can be used two by two -/
theorem realised (sort : List ℂ → List ℂ) (hsort : Sorts sort) (z p : List ℂ) (k : ℝ) (hp' : Paired (sort p))
    (hz' : Usable (sort z)) (hzc : conjPairs ((sort z).filter fun z => z.im ≠ 0)) (hlen : z.length ≤ p.length)
    (hne : p ≠ []) :
    ∃ q, zpk2abcd sort z p k = .ok q ∧ q.n = p.length ∧ ∀ s : ℂ, (∀ r ∈ p, s ≠ r) →
      (s • (1 : Matrix (Fin q.sys.N) (Fin q.sys.N) ℂ) - toM q.sys.N q.sys.N q.sys.A).det ≠ 0 ∧
      q.sys.tfm s = Matrix.of fun (_ : Fin 1) (_ : Fin 1) => zpkValue z p (|k| : ℝ) s := by
  obtain ⟨permp, -⟩ := hsort p
  obtain ⟨permz, -⟩ := hsort z
  have hpos : 0 < p.length := List.length_pos_iff.mpr hne
  obtain ⟨l, hl, hsiso, hnel, hlN, hval⟩ := paired_loop (|k| ^ ((p.length : ℝ)⁻¹)) hp' (sort z) hz'
    (by rw [permp.length_eq, permz.length_eq]; exact hlen)
  have hpne : sort p ≠ [] := by
    rw [← List.length_pos_iff, permp.length_eq]
    exact hpos
  obtain ⟨S, hS⟩ : ∃ S, chain l = .ok S := by
    refine (C22_accepts l).1.mpr ?_
    cases l with
    | nil => exact absurd rfl (hnel hpne)
    | cons g t =>
      refine ⟨g, rfl, ?_, ?_⟩
      · rw [(hsiso g (by simp)).1, (hsiso g (by simp)).2]
      · refine List.Pairwise.isChain ?_
        rw [List.pairwise_iff_forall_sublist]
        intro a b hab
        have hb := hsiso b (hab.subset (by simp))
        have ha := hsiso a (hab.subset (by simp))
        rw [hb.1, ha.2]
  refine ⟨toABCD S, ?_, ?_, fun s hs => ?_⟩
  · unfold zpk2abcd
    rw [if_neg (by omega), sort_ok sort p _ rfl hp'.conjPairs, sort_ok sort z _ rfl hzc]
    simp only [bind, Except.bind]
    rw [hl]
    dsimp only
    rw [hS]
  · obtain ⟨f, t, a, -, -, hN, -⟩ := chain_ok_data _ _ hS
    rw [← permp.length_eq, ← hlN, ← hN]
    rfl
  · obtain ⟨v, hv, hprod⟩ := hval s (fun r hr => sub_ne_zero.mpr (hs r (permp.mem_iff.mp hr)))
    obtain ⟨h1, h2⟩ := chain_gain l S hS s v hv
    refine ⟨h1, ?_⟩
    have hkk : (((|k| ^ ((p.length : ℝ)⁻¹) : ℝ)) : ℂ) ^ p.length = |k| := by
      have : (|k| ^ ((p.length : ℝ)⁻¹)) ^ p.length = |k| :=
        Real.rpow_inv_natCast_pow (abs_nonneg k) (by omega)
      rw [← ofReal_pow, this]
    rw [h2, hprod, permp.length_eq, hkk, zpkValue, (permz.map _).prod_eq, (permp.map _).prod_eq]

/-- **C26 (part that holds)** patterns of conjugate pairs, no two of which have the same imaginary parts, and at
most one real pole and one real zero: `zpk2abcd` accepts them, and the result has one state per pole, no pole but
the given ones and the requested transfer function, with `|k|` in the place of `k`. -/
theorem C26_conjugate_partial (sort : List ℂ → List ℂ) (hsort : Sorts sort) (z p : List ℂ) (k : ℝ)
    (hz : Conjugate z) (hp : Conjugate p) (hlen : z.length ≤ p.length) (hne : p ≠ []) :
    ∃ q, zpk2abcd sort z p k = .ok q ∧ q.n = p.length ∧ ∀ s : ℂ, (∀ r ∈ p, s ≠ r) →
      (s • (1 : Matrix (Fin q.sys.N) (Fin q.sys.N) ℂ) - toM q.sys.N q.sys.N q.sys.A).det ≠ 0 ∧
      q.sys.tfm s = Matrix.of fun (_ : Fin 1) (_ : Fin 1) => zpkValue z p (|k| : ℝ) s := by
  obtain ⟨permp, sortp⟩ := hsort p
  obtain ⟨permz, sortz⟩ := hsort z
  have hz' := (hz.perm permz).paired _ _ rfl sortz
  exact realised sort hsort z p k ((hp.perm permp).paired _ _ rfl sortp) hz'.usable hz'.conjPairs hlen hne

/-- a sorted list whose entries off the real axis come in conjugate pairs can be used two by two -/
theorem usable_of_sorted (n : ℕ) : ∀ l : List ℂ, l.length = n → l.Pairwise (fun a b => |b.im| ≤ |a.im|) →
    Paired (l.filter fun z => z.im ≠ 0) → Usable l := by
  induction n using Nat.strong_induction_on with
  | _ n ih =>
    intro l hn hs h
    match l, hn, hs, h with
    | [], _, _, _ => exact .nil
    | [a], _, _, h =>
      by_cases ha : a.im = 0
      · exact .one a ha
      · rw [List.filter_cons_of_pos (by simpa using ha), List.filter_nil] at h
        cases h with
        | one _ h0 => exact absurd h0 ha
    | a :: b :: t, hn, hs, h =>
      simp only [List.pairwise_cons, List.mem_cons] at hs
      have hlt : t.length < n := by
        rw [← hn]
        simp
      by_cases ha : a.im = 0
      · have hreal : ∀ c : ℂ, c = b ∨ c ∈ t → c.im = 0 := by
          intro c hc
          have := hs.1 c hc
          rw [ha, abs_zero] at this
          exact abs_nonpos_iff.mp this
        have hb := hreal b (Or.inl rfl)
        refine .pair a b t (by simp [ha, hb]) (by simp [ha, hb]) (ih t.length hlt t rfl hs.2.2 ?_)
        have : (t.filter fun z => z.im ≠ 0) = [] := by
          rw [List.filter_eq_nil_iff]
          intro c hc
          simpa using hreal c (Or.inr hc)
        rw [this]
        exact .nil
      · rw [List.filter_cons_of_pos (by simpa using ha)] at h
        by_cases hb : b.im = 0
        · have : ((b :: t).filter fun z => z.im ≠ 0) = [] := by
            rw [List.filter_eq_nil_iff]
            intro c hc
            rcases List.mem_cons.mp hc with rfl | hc
            · simpa using hb
            · have := hs.2.1 c hc
              rw [hb, abs_zero] at this
              simpa using abs_nonpos_iff.mp this
          rw [this] at h
          cases h with
          | one _ h0 => exact absurd h0 ha
        · rw [List.filter_cons_of_pos (by simpa using hb)] at h
          cases h with
          | pair _ _ _ _ e hl =>
            refine .pair a b t ?_ ?_ (ih t.length hlt t rfl hs.2.2 hl)
            · rw [e]
              simp
            · rw [e]
              simp
              ring

/-- **C26 (part that holds)** the poles as before; any number of real zeros, also repeated ones, and conjugate pairs of
zeros, no two of which have the same imaginary parts: `zpk2abcd` accepts them and the result has the requested
transfer function, with `|k|` in the place of `k`. -/
theorem C26_real_zeros_partial (sort : List ℂ → List ℂ) (hsort : Sorts sort) (z p : List ℂ) (k : ℝ)
    (hz : Conjugate (z.filter fun z => z.im ≠ 0)) (hp : Conjugate p) (hlen : z.length ≤ p.length) (hne : p ≠ []) :
    ∃ q, zpk2abcd sort z p k = .ok q ∧ q.n = p.length ∧ ∀ s : ℂ, (∀ r ∈ p, s ≠ r) →
      (s • (1 : Matrix (Fin q.sys.N) (Fin q.sys.N) ℂ) - toM q.sys.N q.sys.N q.sys.A).det ≠ 0 ∧
      q.sys.tfm s = Matrix.of fun (_ : Fin 1) (_ : Fin 1) => zpkValue z p (|k| : ℝ) s := by
  obtain ⟨permp, sortp⟩ := hsort p
  obtain ⟨permz, sortz⟩ := hsort z
  have hz' : Paired ((sort z).filter fun z => z.im ≠ 0) :=
    (hz.perm (permz.filter _)).paired _ _ rfl (sortz.filter _)
  refine realised sort hsort z p k ((hp.perm permp).paired _ _ rfl sortp) (usable_of_sorted _ _ rfl sortz hz') ?_ hlen hne
  have := hz'.conjPairs
  simpa only [List.filter_filter, Bool.and_self] using this

/-- `C26_conjugate_partial`: two conjugate pairs and a real pole, and a pair of imaginary zeros -/
example : Conjugate [-1 + 2 * I, -1 - 2 * I, -2 + I, -2 - I, -3] ∧ Conjugate [3 * I, -(3 * I)] := by
  refine ⟨⟨?_, ?_, ?_⟩, ⟨?_, ?_, ?_⟩⟩ <;> simp only [List.nodup_cons, List.mem_cons, List.not_mem_nil, or_false,
    Complex.ext_iff]
  · norm_num
  · rintro a (h | h | h | h | h) <;> norm_num [h]
  · rintro a (h | h | h | h | h) b (h' | h' | h' | h' | h') <;> norm_num [h, h']
  · norm_num
  · rintro a (h | h) <;> norm_num [h]
  · rintro a (h | h) b (h' | h') <;> norm_num [h, h']

/-- three zeros at the origin and a pair of zeros with five poles -/
example : Conjugate (([0, 0, 3 * I, -(3 * I), 0] : List ℂ).filter fun z => z.im ≠ 0) := by
  have : (([0, 0, 3 * I, -(3 * I), 0] : List ℂ).filter fun z => z.im ≠ 0) = [3 * I, -(3 * I)] := by
    simp
  rw [this]
  refine ⟨?_, ?_, ?_⟩ <;> simp only [List.nodup_cons, List.mem_cons, List.not_mem_nil, or_false, Complex.ext_iff]
  · norm_num
  · rintro a (h | h) <;> norm_num [h]
  · rintro a (h | h) b (h' | h') <;> norm_num [h, h']

end Cbadc.Analog
