import Verif.Spec.Hierarchy
import Mathlib.Data.List.Basic

/-! # Lemmas for circuit hierarchies -/

namespace Cbadc.Hierarchy
open Spec

variable {δ : Type} {V : Type*}

theorem occurs_sub {name cache} {text : δ} {parts : List (Elem δ V)} {b : Elem δ V} :
    Occurs (.sub name cache text parts) b ↔ b = .sub name cache text parts ∨ ∃ p ∈ parts, Occurs p b := by
  constructor
  · intro h
    cases h with
    | refl => exact Or.inl rfl
    | inside hp ho => exact Or.inr ⟨_, hp, ho⟩
  · rintro (rfl | ⟨p, hp, ho⟩)
    · exact .refl _
    · exact .inside hp ho

theorem occurs_device {m : Option (DevModel V)} {b : Elem δ V} :
    Occurs (.device m) b ↔ b = .device m := by
  constructor
  · intro h; cases h; rfl
  · rintro rfl; exact .refl _

theorem Occurs.trans {a b c : Elem δ V} (h : Occurs a b) (h' : Occurs b c) : Occurs a c := by
  induction h with
  | refl => exact h'
  | inside hp _ ih => exact .inside hp (ih h')

/-! ### appending new entries -/

theorem appendNew_cons {α : Type*} (eq : α → α → Bool) (r : List α) (x : α) (l : List α) :
    appendNew eq r (x :: l) = appendNew eq (if r.any (fun y => eq y x) then r else r ++ [x]) l := rfl

theorem subset_appendNew {α : Type*} (eq : α → α → Bool) (r l : List α) : r ⊆ appendNew eq r l := by
  induction l generalizing r with
  | nil => exact fun _ h => h
  | cons x l ih =>
    rw [appendNew_cons]
    refine List.Subset.trans ?_ (ih _)
    by_cases h : r.any (fun y => eq y x)
    · rw [if_pos h]; exact fun _ h => h
    · rw [if_neg h]; exact List.subset_append_left _ _

theorem mem_of_appendNew {α : Type*} (eq : α → α → Bool) {r l : List α} {x : α}
    (h : x ∈ appendNew eq r l) : x ∈ r ∨ x ∈ l := by
  induction l generalizing r with
  | nil => exact Or.inl h
  | cons y l ih =>
    rw [appendNew_cons] at h
    rcases ih h with h | h
    · by_cases hc : r.any (fun z => eq z y)
      · rw [if_pos hc] at h; exact Or.inl h
      · rw [if_neg hc, List.mem_append, List.mem_singleton] at h
        rcases h with h | rfl
        · exact Or.inl h
        · exact Or.inr (List.mem_cons_self)
    · exact Or.inr (List.mem_cons_of_mem _ h)

theorem appendNew_has {α : Type*} (eq : α → α → Bool) (hrefl : ∀ x, eq x x = true) {r l : List α} {x : α}
    (h : x ∈ l) : ∃ y ∈ appendNew eq r l, eq y x = true := by
  induction l generalizing r with
  | nil => cases h
  | cons z l ih =>
    rw [appendNew_cons]
    rcases List.mem_cons.mp h with rfl | h
    · by_cases hc : r.any (fun y => eq y x) = true
      · rw [if_pos hc]
        obtain ⟨y, hy, he⟩ := List.any_eq_true.mp hc
        exact ⟨y, subset_appendNew eq _ _ hy, he⟩
      · rw [if_neg hc]
        exact ⟨x, subset_appendNew eq _ _ (by simp), hrefl x⟩
    · exact ih h

theorem appendNew_pairwise {α : Type*} (eq : α → α → Bool) {r l : List α}
    (h : r.Pairwise fun a b => eq a b = false) : (appendNew eq r l).Pairwise fun a b => eq a b = false := by
  induction l generalizing r with
  | nil => exact h
  | cons x l ih =>
    rw [appendNew_cons]
    apply ih
    by_cases hc : r.any (fun y => eq y x) = true
    · rw [if_pos hc]; exact h
    · rw [if_neg hc, List.pairwise_append]
      refine ⟨h, List.pairwise_singleton _ _, ?_⟩
      intro a ha b hb
      rw [List.mem_singleton] at hb
      subst hb
      by_contra hne
      exact hc (List.any_eq_true.mpr ⟨a, ha, by simpa using hne⟩)

/-- the first entry of a kind stays -/
theorem appendNew_append {α : Type*} (eq : α → α → Bool) (r l : List α) :
    ∃ s, appendNew eq r l = r ++ s := by
  induction l generalizing r with
  | nil => exact ⟨[], (List.append_nil r).symm⟩
  | cons x l ih =>
    rw [appendNew_cons]
    by_cases hc : r.any (fun y => eq y x)
    · rw [if_pos hc]; exact ih r
    · rw [if_neg hc]
      obtain ⟨s, hs⟩ := ih (r ++ [x])
      exact ⟨x :: s, by rw [hs]; simp⟩

/-! ### definitions -/

section Defs
variable [DecidableEq δ]

mutual
theorem mem_defs (d : δ) : (e : Elem δ V) → (d ∈ defs e ↔ ∃ s, Occurs e s ∧ HasText d s)
  | .device m => by
    simp only [defs, List.not_mem_nil, false_iff, occurs_device]
    rintro ⟨s, rfl, name, cache, parts, h⟩
    cases h
  | .sub name cache text parts => by
    rw [defs, mem_defsLoop d parts]
    constructor
    · rintro (h | ⟨p, hp, s, ho, hs⟩)
      · rw [List.mem_singleton] at h
        exact ⟨_, .refl _, name, cache, parts, by rw [h]⟩
      · exact ⟨s, .inside hp ho, hs⟩
    · rintro ⟨s, ho, hs⟩
      rcases occurs_sub.mp ho with rfl | ⟨p, hp, ho⟩
      · obtain ⟨_, _, _, h⟩ := hs
        cases h
        exact Or.inl (List.mem_singleton_self _)
      · exact Or.inr ⟨p, hp, s, ho, hs⟩
theorem mem_defsLoop (d : δ) : (ps : List (Elem δ V)) → (r : List δ) →
    (d ∈ defsLoop ps r ↔ d ∈ r ∨ ∃ p ∈ ps, ∃ s, Occurs p s ∧ HasText d s)
  | [], r => by simp [defsLoop]
  | p :: ps, r => by
    rw [defsLoop, mem_defsLoop d ps]
    have h1 : d ∈ appendNew (fun x y => x == y) r (defs p) ↔ d ∈ r ∨ d ∈ defs p := by
      constructor
      · exact mem_of_appendNew _
      · rintro (h | h)
        · exact subset_appendNew _ _ _ h
        · obtain ⟨y, hy, he⟩ := appendNew_has (fun x y : δ => x == y) (fun x => beq_self_eq_true x) (r := r) h
          rw [beq_iff_eq] at he
          exact he ▸ hy
    rw [h1, mem_defs d p]
    simp only [List.mem_cons, exists_eq_or_imp, or_assoc]
end

theorem defsLoop_pairwise (ps : List (Elem δ V)) (r : List δ)
    (h : r.Pairwise fun a b => (a == b) = false) : (defsLoop ps r).Pairwise fun a b => (a == b) = false := by
  induction ps generalizing r with
  | nil => exact h
  | cons p ps ih => rw [defsLoop]; exact ih _ (appendNew_pairwise _ h)

theorem defsLoop_append (ps : List (Elem δ V)) (r : List δ) : ∃ s, defsLoop ps r = r ++ s := by
  induction ps generalizing r with
  | nil => exact ⟨[], (List.append_nil r).symm⟩
  | cons p ps ih =>
    rw [defsLoop]
    obtain ⟨s, hs⟩ := appendNew_append (fun x y => x == y) r (defs p)
    obtain ⟨s', hs'⟩ := ih (appendNew (fun x y => x == y) r (defs p))
    exact ⟨s ++ s', by rw [hs', hs, List.append_assoc]⟩

end Defs

/-! ### models -/

theorem DevModel.eq_refl (m : DevModel V) : m.eq m = true := by simp [DevModel.eq]

theorem DevModel.eq_iff (a b : DevModel V) : a.eq b = true ↔ a.kind = b.kind ∧ a.name = b.name := by
  simp [DevModel.eq]

theorem DevModel.eq_trans {a b c : DevModel V} (h : a.eq b = true) (h' : b.eq c = true) : a.eq c = true := by
  rw [DevModel.eq_iff] at *
  exact ⟨h.1.trans h'.1, h.2.trans h'.2⟩

mutual
theorem of_mem_modelSet (m : DevModel V) : (e : Elem δ V) → m ∈ modelSet e → Occurs e (.device (some m))
  | .device none => by intro h; simp [modelSet] at h
  | .device (some m') => by
    intro h
    simp only [modelSet, List.mem_singleton] at h
    rw [h]; exact .refl _
  | .sub name cache text parts => by
    intro h
    rw [modelSet] at h
    rcases of_mem_modelLoop m parts [] h with h | ⟨p, hp, ho⟩
    · cases h
    · exact .inside hp ho
theorem of_mem_modelLoop (m : DevModel V) : (ps : List (Elem δ V)) → (r : List (DevModel V)) →
    m ∈ modelLoop ps r → m ∈ r ∨ ∃ p ∈ ps, Occurs p (.device (some m))
  | [], r => fun h => Or.inl h
  | p :: ps, r => by
    intro h
    rw [modelLoop] at h
    rcases of_mem_modelLoop m ps _ h with h | ⟨q, hq, ho⟩
    · rcases mem_of_appendNew _ h with h | h
      · exact Or.inl h
      · exact Or.inr ⟨p, List.mem_cons_self, of_mem_modelSet m p h⟩
    · exact Or.inr ⟨q, List.mem_cons_of_mem _ hq, ho⟩
end

theorem subset_modelLoop (ps : List (Elem δ V)) (r : List (DevModel V)) : r ⊆ modelLoop ps r := by
  induction ps generalizing r with
  | nil => exact fun _ h => h
  | cons p ps ih => rw [modelLoop]; exact List.Subset.trans (subset_appendNew _ _ _) (ih _)

mutual
theorem modelSet_has (m : DevModel V) : (e : Elem δ V) → Occurs e (.device (some m)) →
    ∃ m' ∈ modelSet e, m'.eq m = true
  | .device o => by
    intro h
    rw [occurs_device] at h
    cases h
    exact ⟨m, by simp [modelSet], m.eq_refl⟩
  | .sub name cache text parts => by
    intro h
    rw [modelSet]
    rcases occurs_sub.mp h with h | ⟨p, hp, ho⟩
    · cases h
    · exact modelLoop_has m parts [] p hp ho
theorem modelLoop_has (m : DevModel V) : (ps : List (Elem δ V)) → (r : List (DevModel V)) →
    ∀ p ∈ ps, Occurs p (.device (some m)) → ∃ m' ∈ modelLoop ps r, m'.eq m = true
  | [], _ => by intro p hp; cases hp
  | q :: ps, r => by
    intro p hp ho
    rw [modelLoop]
    rcases List.mem_cons.mp hp with hq | hp
    · obtain ⟨m', hm', he⟩ := modelSet_has m q (hq ▸ ho)
      obtain ⟨m'', hm'', he'⟩ := appendNew_has DevModel.eq DevModel.eq_refl (r := r) hm'
      exact ⟨m'', subset_modelLoop _ _ hm'', DevModel.eq_trans he' he⟩
    · exact modelLoop_has m ps _ p hp ho
end

theorem modelLoop_pairwise (ps : List (Elem δ V)) (r : List (DevModel V))
    (h : r.Pairwise fun a b => a.eq b = false) : (modelLoop ps r).Pairwise fun a b => a.eq b = false := by
  induction ps generalizing r with
  | nil => exact h
  | cons p ps ih => rw [modelLoop]; exact ih _ (appendNew_pairwise _ h)

theorem modelSet_pairwise (e : Elem δ V) : (modelSet e).Pairwise fun a b => a.eq b = false := by
  cases e with
  | device o => cases o <;> simp [modelSet]
  | sub name cache text parts => rw [modelSet]; exact modelLoop_pairwise _ _ List.Pairwise.nil

/-! ### names -/

/-- the names in a list of elements, as a set -/
def NameIn (k : String) (ps : List (Elem δ V)) : Prop := ∃ p ∈ ps, ∃ s, Occurs p s ∧ HasName k s

theorem hasName_sub {k name cache} {text : δ} {parts : List (Elem δ V)} :
    (∃ s, Occurs (.sub name cache text parts) s ∧ HasName k s) ↔ k = name ∨ NameIn k parts := by
  constructor
  · rintro ⟨s, ho, hs⟩
    rcases occurs_sub.mp ho with rfl | ⟨p, hp, ho⟩
    · obtain ⟨_, _, _, h⟩ := hs
      cases h
      exact Or.inl rfl
    · exact Or.inr ⟨p, hp, s, ho, hs⟩
  · rintro (rfl | ⟨p, hp, s, ho, hs⟩)
    · exact ⟨_, .refl _, _, _, _, rfl⟩
    · exact ⟨s, .inside hp ho, hs⟩

theorem current_sub {name cache} {text : δ} {parts : List (Elem δ V)} :
    Current (.sub name cache text parts) ↔
      (cache = [] ∨ ∀ k, k ∈ cache ↔ k = name ∨ NameIn k parts) ∧ ∀ p ∈ parts, Current p := by
  constructor
  · intro h
    refine ⟨?_, fun p hp n c t ps ho => h n c t ps (.inside hp ho)⟩
    have := h name cache text parts (.refl _)
    simp only [hasName_sub] at this
    exact this
  · rintro ⟨h, hp⟩ n c t ps ho
    rcases occurs_sub.mp ho with he | ⟨p, hp', ho⟩
    · cases he
      simp only [hasName_sub]
      exact h
    · exact hp p hp' n c t ps ho

mutual
theorem names_bare (k : String) : (e : Elem δ V) →
    ((∃ s, Occurs (bare e) s ∧ HasName k s) ↔ ∃ s, Occurs e s ∧ HasName k s)
  | .device m => Iff.rfl
  | .sub name cache text parts => by
    rw [bare, hasName_sub, hasName_sub, namesIn_bares k parts]
theorem namesIn_bares (k : String) : (ps : List (Elem δ V)) → (NameIn k (bares ps) ↔ NameIn k ps)
  | [] => Iff.rfl
  | p :: ps => by
    have h1 := names_bare k p
    have h2 := namesIn_bares k ps
    unfold NameIn at *
    rw [bares]
    simp only [List.mem_cons, exists_eq_or_imp]
    rw [h1, h2]
end

theorem NameIn_congr {k : String} {ps qs : List (Elem δ V)} (h : bares ps = bares qs) :
    NameIn k ps ↔ NameIn k qs := by
  rw [← namesIn_bares, h, namesIn_bares]

mutual
theorem subcktNames_spec : (e : Elem δ V) → Current e →
    (∀ k, k ∈ (subcktNames e).1 ↔ ∃ s, Occurs e s ∧ HasName k s) ∧ Current (subcktNames e).2 ∧
      bare (subcktNames e).2 = bare e
  | .device m => by
    intro h
    refine ⟨fun k => ?_, h, rfl⟩
    simp only [subcktNames, List.not_mem_nil, false_iff, occurs_device]
    rintro ⟨s, rfl, _, _, _, h⟩
    cases h
  | .sub name cache text parts => by
    intro h
    rw [current_sub] at h
    obtain ⟨h1, h2, h3⟩ := namesLoop_spec parts h.2
    rw [subcktNames]
    by_cases hc : cache = []
    · rw [if_pos hc]
      refine ⟨fun k => ?_, ?_, ?_⟩
      · rw [hasName_sub, List.mem_cons, h1]
      · rw [current_sub]
        refine ⟨Or.inr fun k => ?_, h2⟩
        rw [List.mem_cons, h1, NameIn_congr h3]
      · rw [bare, bare, h3]
    · rw [if_neg hc]
      refine ⟨fun k => ?_, current_sub.mpr h, rfl⟩
      rw [hasName_sub]
      exact (h.1.resolve_left hc) k
theorem namesLoop_spec : (ps : List (Elem δ V)) → (∀ p ∈ ps, Current p) →
    (∀ k, k ∈ (namesLoop ps).1 ↔ NameIn k ps) ∧ (∀ p ∈ (namesLoop ps).2, Current p) ∧
      bares (namesLoop ps).2 = bares ps
  | [] => by intro _; exact ⟨by simp [namesLoop, NameIn], by simp [namesLoop], rfl⟩
  | p :: ps => by
    intro h
    obtain ⟨a1, a2, a3⟩ := subcktNames_spec p (h p List.mem_cons_self)
    obtain ⟨b1, b2, b3⟩ := namesLoop_spec ps (fun q hq => h q (List.mem_cons_of_mem _ hq))
    rw [namesLoop]
    refine ⟨fun k => ?_, ?_, ?_⟩
    · rw [List.mem_append, a1, b1]
      unfold NameIn
      simp only [List.mem_cons, exists_eq_or_imp]
    · intro q hq
      rcases List.mem_cons.mp hq with rfl | hq
      · exact a2
      · exact b2 q hq
    · rw [bares, bares, a3, b3]
end

theorem clash_sub {name cache} {text : δ} {parts : List (Elem δ V)} :
    Clash (.sub name cache text parts) ↔ NameIn name parts ∨ ∃ p ∈ parts, Clash p := by
  constructor
  · rintro ⟨n, c, t, ps, ho, h⟩
    rcases occurs_sub.mp ho with he | ⟨p, hp, ho⟩
    · cases he
      exact Or.inl h
    · exact Or.inr ⟨p, hp, n, c, t, ps, ho, h⟩
  · rintro (h | ⟨p, hp, n, c, t, ps, ho, h⟩)
    · exact ⟨name, cache, text, parts, .refl _, h⟩
    · exact ⟨n, c, t, ps, .inside hp ho, h⟩

mutual
theorem checkNames_spec : (e : Elem δ V) → Current e →
    (Clash e → checkNames e = .error .valueError) ∧
    (¬ Clash e → ∃ e', checkNames e = .ok e' ∧ Current e' ∧ bare e' = bare e)
  | .device m => by
    intro h
    refine ⟨?_, fun _ => ⟨_, rfl, h, rfl⟩⟩
    rintro ⟨n, c, t, ps, ho, -⟩
    rw [occurs_device] at ho
    cases ho
  | .sub name cache text parts => by
    intro h
    rw [clash_sub, checkNames]
    have h' := current_sub.mp h
    obtain ⟨h1, h2⟩ := checkLoop_spec name parts h'.2
    refine ⟨fun hc => by rw [h1 hc], fun hc => ?_⟩
    obtain ⟨ps, he, hcur, hb⟩ := h2 hc
    refine ⟨_, by rw [he], ?_, by rw [bare, bare, hb]⟩
    rw [current_sub]
    refine ⟨h'.1.imp id fun hk k => ?_, hcur⟩
    rw [hk k, NameIn_congr hb]
theorem checkLoop_spec (name : String) : (ps : List (Elem δ V)) → (∀ p ∈ ps, Current p) →
    ((NameIn name ps ∨ ∃ p ∈ ps, Clash p) → checkLoop name ps = .error .valueError) ∧
    (¬ (NameIn name ps ∨ ∃ p ∈ ps, Clash p) →
      ∃ qs, checkLoop name ps = .ok qs ∧ (∀ q ∈ qs, Current q) ∧ bares qs = bares ps)
  | [] => by
    intro _
    refine ⟨?_, fun _ => ⟨[], rfl, by simp, rfl⟩⟩
    rintro (⟨p, hp, -⟩ | ⟨p, hp, -⟩) <;> cases hp
  | p :: ps => by
    intro h
    obtain ⟨a1, a2⟩ := checkNames_spec p (h p List.mem_cons_self)
    obtain ⟨b1, b2⟩ := checkLoop_spec name ps (fun q hq => h q (List.mem_cons_of_mem _ hq))
    rw [checkLoop]
    by_cases hcl : Clash p
    · rw [a1 hcl]
      exact ⟨fun _ => rfl, fun hn => absurd (Or.inr ⟨p, List.mem_cons_self, hcl⟩) hn⟩
    · obtain ⟨p', he, hcur, hb⟩ := a2 hcl
      rw [he]
      dsimp only
      obtain ⟨c1, c2, c3⟩ := subcktNames_spec p' hcur
      have hn : name ∈ (subcktNames p').1 ↔ ∃ s, Occurs p s ∧ HasName name s := by
        rw [c1, ← names_bare, hb, names_bare]
      by_cases hin : name ∈ (subcktNames p').1
      · rw [if_pos hin]
        exact ⟨fun _ => rfl, fun hx => absurd (Or.inl ⟨p, List.mem_cons_self, hn.mp hin⟩) hx⟩
      · rw [if_neg hin]
        have hsplit : (NameIn name (p :: ps) ∨ ∃ q ∈ p :: ps, Clash q) ↔
            (NameIn name ps ∨ ∃ q ∈ ps, Clash q) := by
          unfold NameIn
          simp only [List.mem_cons, exists_eq_or_imp]
          have hno := hn.not.mp hin
          constructor
          · rintro ((h | h) | (h | h))
            · exact absurd h hno
            · exact Or.inl h
            · exact absurd h hcl
            · exact Or.inr h
          · rintro (h | h)
            · exact Or.inl (Or.inr h)
            · exact Or.inr (Or.inr h)
        rw [hsplit]
        refine ⟨fun hx => by rw [b1 hx], fun hx => ?_⟩
        obtain ⟨qs, hq, hqc, hqb⟩ := b2 hx
        refine ⟨_, by rw [hq], ?_, by rw [bares, bares, c3, hb, hqb]⟩
        intro q hq'
        rcases List.mem_cons.mp hq' with rfl | hq'
        · exact c2
        · exact hqc q hq'
end

end Cbadc.Hierarchy
