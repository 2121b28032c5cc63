import Verif.Lemmas.Circuit
import Mathlib.Tactic.FinCases

/-!
# Properties of circuit elements and their connections (C51, C54, C89, C90)
-/

namespace Cbadc.Circuit

open Spec

variable {τ : Type} [DecidableEq τ]

/-! ## C54: terminals of an element -/

/-- The lookup of an element is exact: names are different and each leads to its position. -/
def Exact (nm : τ → String) (e : Element τ) : Prop :=
  (e.terms.map nm).Nodup ∧ ∀ s (i : ℕ), e.lookup s = some i ↔ e.terms[i]?.map nm = some s

omit [DecidableEq τ] in
theorem rebuild_eq (nm : τ → String) (ts : List τ) (k : ℕ) (d : String → Option ℕ)
    (h : (ts.map nm).Nodup) (s : String) :
    (∀ i : ℕ, ts[i]?.map nm = some s → rebuild nm ts k d s = some (k + i)) ∧
    ((∀ i : ℕ, ts[i]?.map nm ≠ some s) → rebuild nm ts k d s = d s) := by
  induction ts generalizing k d with
  | nil =>
    refine ⟨?_, fun _ => rfl⟩
    intro i hi
    simp at hi
  | cons t ts ih =>
    rw [List.map_cons, List.nodup_cons] at h
    obtain ⟨h1, h2⟩ := ih (k + 1) (Function.update d (nm t) (some k)) h.2
    unfold rebuild
    constructor
    · intro i hi
      cases i with
      | zero =>
        have hs : nm t = s := by simpa using hi
        rw [h2, ← hs, Function.update_self]
        · rfl
        · intro j hj
          rw [Option.map_eq_some_iff] at hj
          obtain ⟨a, ha, ha'⟩ := hj
          apply h.1
          rw [hs, ← ha']
          exact List.mem_map_of_mem (List.mem_of_getElem? ha)
      | succ i =>
        have := h1 i (by simpa using hi)
        rw [this]
        congr 1
        omega
    · intro hn
      have hs : nm t ≠ s := fun e => hn 0 (by simp [e])
      rw [h2 (fun i => by simpa using hn (i + 1)), Function.update_of_ne hs.symm]

omit [DecidableEq τ] in
theorem exact_getElem {nm : τ → String} {e : Element τ} (h : Exact nm e) (s : String) :
    (e.lookup s).isSome ↔ s ∈ e.terms.map nm := by
  constructor
  · intro hs
    obtain ⟨i, hi⟩ := Option.isSome_iff_exists.mp hs
    have := (h.2 s i).mp hi
    rw [Option.map_eq_some_iff] at this
    obtain ⟨t, ht, ht'⟩ := this
    rw [← ht']
    exact List.mem_map_of_mem (List.mem_of_getElem? ht)
  · intro hs
    obtain ⟨t, ht, ht'⟩ := List.mem_map.mp hs
    obtain ⟨i, hi⟩ := List.mem_iff_getElem?.mp ht
    rw [(h.2 s i).mpr (by rw [hi]; exact congrArg some ht')]
    rfl

omit [DecidableEq τ] in
/-- One accepted addition of a terminal with a new name, at the end or at a position. -/
theorem exact_add {nm : τ → String} {e e' : Element τ} (h : Exact nm e) (t : τ) (k : ℤ)
    (hf : nm t ∉ e.terms.map nm) (he : e.addTerminal nm t k = .ok e') :
    Exact nm e' ∧ e'.terms = if k = -1 then e.terms ++ [t] else e.terms.insertIdx k.toNat t := by
  unfold Element.addTerminal at he
  by_cases hk : k = -1
  · rw [if_pos hk] at he
    rw [if_pos hk]
    by_cases hd : (e.lookup (nm t)).isSome
    · rw [if_pos hd] at he; exact absurd he (by simp)
    · rw [if_neg hd] at he
      obtain rfl := Except.ok.inj he
      refine ⟨⟨?_, ?_⟩, rfl⟩
      · dsimp only
        rw [List.map_append, List.map_singleton, List.nodup_append]
        refine ⟨h.1, List.nodup_singleton _, ?_⟩
        intro a ha b hb
        rw [List.mem_singleton] at hb
        subst hb
        exact fun e => hf (e ▸ ha)
      · intro s i
        dsimp only
        by_cases hs : s = nm t
        · rw [hs, Function.update_self]
          constructor
          · intro hi
            obtain rfl := Option.some.inj hi
            simp
          · intro hi
            rw [Option.map_eq_some_iff] at hi
            obtain ⟨a, ha, ha'⟩ := hi
            by_cases hl : i < e.terms.length
            · rw [List.getElem?_append_left hl] at ha
              exact absurd (ha' ▸ List.mem_map_of_mem (List.mem_of_getElem? ha)) hf
            · by_cases hl' : i = e.terms.length
              · rw [hl']
              · rw [List.getElem?_eq_none (by simp; omega)] at ha
                exact absurd ha (by simp)
        · rw [Function.update_of_ne hs, h.2]
          by_cases hl : i < e.terms.length
          · rw [List.getElem?_append_left hl]
          · rw [List.getElem?_eq_none (by omega)]
            constructor
            · intro hi; simp at hi
            · intro hi
              rw [Option.map_eq_some_iff] at hi
              obtain ⟨a, ha, ha'⟩ := hi
              by_cases hl' : i = e.terms.length
              · rw [hl', List.getElem?_append_right (le_refl _)] at ha
                simp at ha
                exact absurd (by rw [← ha', ha]) hs
              · rw [List.getElem?_eq_none (by simp; omega)] at ha
                exact absurd ha (by simp)
  · rw [if_neg hk] at he
    rw [if_neg hk]
    by_cases hr : 0 ≤ k ∧ k < e.terms.length
    · rw [if_pos hr] at he
      dsimp only at he
      obtain rfl := Except.ok.inj he
      have hlen : k.toNat ≤ e.terms.length := by omega
      have hnd : ((e.terms.insertIdx k.toNat t).map nm).Nodup := by
        have hp : (e.terms.insertIdx k.toNat t).Perm (t :: e.terms) := List.perm_insertIdx t e.terms hlen
        rw [(hp.map nm).nodup_iff, List.map_cons, List.nodup_cons]
        exact ⟨hf, h.1⟩
      refine ⟨⟨hnd, ?_⟩, rfl⟩
      intro s i
      dsimp only
      obtain ⟨h1, h2⟩ := rebuild_eq nm (e.terms.insertIdx k.toNat t) 0 e.lookup hnd s
      constructor
      · intro hi
        by_cases hex : ∃ j : ℕ, (e.terms.insertIdx k.toNat t)[j]?.map nm = some s
        · obtain ⟨j, hj⟩ := hex
          rw [h1 j hj] at hi
          have := Option.some.inj hi
          rw [Nat.zero_add] at this
          rw [← this]; exact hj
        · push Not at hex
          rw [h2 hex] at hi
          exfalso
          have hs := (exact_getElem h s).mp (by rw [hi]; rfl)
          obtain ⟨a, ha, ha'⟩ := List.mem_map.mp hs
          have hm : a ∈ e.terms.insertIdx k.toNat t :=
            (List.perm_insertIdx t e.terms hlen).mem_iff.mpr (List.mem_cons_of_mem _ ha)
          obtain ⟨j, hj⟩ := List.mem_iff_getElem?.mp hm
          exact hex j (by rw [hj]; exact congrArg some ha')
      · intro hi
        rw [h1 i hi, Nat.zero_add]
    · rw [if_neg hr] at he
      exact absurd he (by simp)

/-- A history whose names are all different and whose positions exist when they are used. -/
def Spec.Fresh (nm : τ → String) : List (τ × ℤ) → List τ → Prop
  | [], _ => True
  | (t, k) :: hs, ts =>
    nm t ∉ ts.map nm ∧ (k = -1 ∨ (0 ≤ k ∧ k < ts.length)) ∧
      Spec.Fresh nm hs (if k = -1 then ts ++ [t] else ts.insertIdx k.toNat t)

/-- The order the terminals should have after a history of additions. -/
def Spec.order : List (τ × ℤ) → List τ → List τ
  | [], ts => ts
  | (t, k) :: hs, ts => Spec.order hs (if k = -1 then ts ++ [t] else ts.insertIdx k.toNat t)

omit [DecidableEq τ] in
theorem addAll_exact {nm : τ → String} (hs : List (τ × ℤ)) (e : Element τ) (h : Exact nm e)
    (hf : Fresh nm hs e.terms) :
    ∃ e', e.addAll nm hs = .ok e' ∧ Exact nm e' ∧ e'.terms = order hs e.terms := by
  induction hs generalizing e with
  | nil => exact ⟨e, rfl, h, rfl⟩
  | cons c hs ih =>
    obtain ⟨t, k⟩ := c
    obtain ⟨h1, h2, h3⟩ := hf
    have hok : ∃ e', e.addTerminal nm t k = .ok e' := by
      unfold Element.addTerminal
      by_cases hk : k = -1
      · rw [if_pos hk]
        have hd : ¬ (e.lookup (nm t)).isSome := by rw [exact_getElem h]; exact h1
        rw [if_neg hd]
        exact ⟨_, rfl⟩
      · rw [if_neg hk, if_pos (h2.resolve_left hk)]
        exact ⟨_, rfl⟩
    obtain ⟨e1, he1⟩ := hok
    obtain ⟨hx, ht⟩ := exact_add h t k h1 he1
    obtain ⟨e2, he2, hx2, ht2⟩ := ih e1 hx (by rw [ht]; exact h3)
    refine ⟨e2, ?_, hx2, ?_⟩
    · unfold Element.addAll
      rw [he1]
      exact he2
    · rw [ht2, ht]
      rfl

omit [DecidableEq τ] in
theorem exact_empty (nm : τ → String) : Exact nm (Element.empty : Element τ) := by
  refine ⟨List.nodup_nil, ?_⟩
  intro s i
  simp [Element.empty]

omit [DecidableEq τ] in
/-- C54 (histories with different names): such a history is accepted, the terminals are in the order
in which they were put, and a name — in whatever case — leads to the terminal added under it. -/
theorem C54_partial (nm : τ → String) (upper : String → String) (hs : List (τ × ℤ))
    (hf : Fresh nm hs []) :
    ∃ e, Element.empty.addAll nm hs = .ok e ∧ e.terms = order hs [] ∧
      (∀ t ∈ e.terms, ∀ key, upper key = nm t → e.getName upper key = .ok t) ∧
      (∀ key, (∀ t ∈ e.terms, nm t ≠ upper key) → e.getName upper key = .error .valueError) ∧
      ∀ t, nm t ∈ e.terms.map nm → e.addTerminal nm t (-1) = .error .valueError := by
  obtain ⟨e, he, hx, ht⟩ := addAll_exact hs Element.empty (exact_empty nm) hf
  refine ⟨e, he, ht, ?_, ?_, ?_⟩
  · intro t hmem key hk
    obtain ⟨i, hi⟩ := List.mem_iff_getElem?.mp hmem
    have hl := (hx.2 (nm t) i).mpr (by rw [hi]; rfl)
    unfold Element.getName
    rw [hk, hl]
    dsimp only
    rw [hi]
  · intro key hk
    have : e.lookup (upper key) = none := by
      rcases hl : e.lookup (upper key) with _ | i
      · rfl
      · have := (exact_getElem hx (upper key)).mp (by rw [hl]; rfl)
        obtain ⟨t, h1, h2⟩ := List.mem_map.mp this
        exact absurd h2 (hk t h1)
    unfold Element.getName
    rw [this]
  · intro t hmem
    have := (exact_getElem hx (nm t)).mpr hmem
    unfold Element.addTerminal
    rw [if_pos rfl, if_pos this]

/-- `C54_positions`: Three terminals, the last put in front of the others. -/
example : ∃ e, Element.empty.addAll id [("A", -1), ("B", -1), ("C", 0)] = .ok e ∧
    e.terms = ["C", "A", "B"] ∧ e.getName id "B" = .ok "B" := by
  refine ⟨_, rfl, rfl, rfl⟩

example : Fresh id [("A", -1), ("B", -1), ("C", 0)] [] := by
  refine ⟨by simp, Or.inl rfl, by simp, Or.inl rfl, by simp, Or.inr ⟨by decide, by simp⟩, trivial⟩

/-- C54 is false for insertions at a position: there a name that is already in use is accepted, the
element then has two terminals of that name, and the one just added cannot be looked up. -/
theorem C54_false : ∃ (nm : Bool → String) (e : Element Bool),
    Element.empty.addAll nm [(true, -1), (false, 0)] = .ok e ∧ nm true = nm false ∧
    e.terms = [false, true] ∧ e.getName id (nm false) = .ok true :=
  ⟨fun _ => "A", _, rfl, rfl, rfl, rfl⟩

omit [DecidableEq τ] in
/-- C54 (positions): a position is accepted exactly when it is -1 or the position of an existing
terminal; in particular a terminal can not be put at the end by its position. -/
theorem C54_positions (nm : τ → String) (e : Element τ) (t : τ) (k : ℤ) (hk : k ≠ -1) :
    (∃ e', e.addTerminal nm t k = .ok e') ↔ 0 ≤ k ∧ k < e.terms.length := by
  unfold Element.addTerminal
  rw [if_neg hk]
  constructor
  · rintro ⟨e', he⟩
    by_contra hr
    rw [if_neg hr] at he
    exact absurd he (by simp)
  · intro hr
    rw [if_pos hr]
    exact ⟨_, rfl⟩

omit [DecidableEq τ] in
/-- C54 (lookup by position): after adding `l` terminals at the end, the position `k` and the position `k - l` counted from the
end both give the terminal that was added `k`-th, and every other position raises `IndexError`. -/
theorem C54_index (e : Element τ) :
    (∀ k (h : k < e.terms.length), e.getInt k = .ok e.terms[k] ∧ e.getInt (k - e.terms.length) = .ok e.terms[k]) ∧
    ∀ k : ℤ, k < -e.terms.length ∨ e.terms.length ≤ k → e.getInt k = .error .indexError := by
  constructor
  · intro k h
    have hk : e.terms[k]? = some e.terms[k] := List.getElem?_eq_getElem h
    constructor
    · unfold Element.getInt
      dsimp only
      rw [if_neg (by omega), if_neg (by omega), Int.toNat_natCast, hk]
    · unfold Element.getInt
      dsimp only
      have e1 : (k : ℤ) - e.terms.length < 0 := by omega
      simp only [if_pos e1, sub_add_cancel]
      rw [if_neg (by omega), Int.toNat_natCast, hk]
  · rintro k (h | h)
    · unfold Element.getInt
      dsimp only
      rw [if_pos (by split_ifs <;> omega)]
    · unfold Element.getInt
      dsimp only
      rw [if_neg (by omega), if_neg (by omega), List.getElem?_eq_none (by omega)]

example : (⟨["A", "B", "C"], fun _ => none⟩ : Element String).getInt (-1) = .ok "C" := rfl

/-! ## C51: nets -/

/-- Two terminals are on the same net: they are the same terminal or share a port. -/
def Wires.sameNet (w : Wires τ) (a b : τ) : Prop :=
  a = b ∨ ∃ p, w.port a = some p ∧ w.port b = some p

/-- C51 (connections that never join two nets that both exist already): two terminals are on the same
net exactly when a chain of connections links them. -/
theorem C51_partial (nm : τ → String) (cs : List (τ × τ)) (h : Tame cs) (a b : τ) :
    (Wires.connects nm cs .empty).sameNet a b ↔ Linked cs a b := by
  have A := agrees_connects nm cs h
  constructor
  · rintro (rfl | ⟨p, h1, h2⟩)
    · exact .refl _
    · exact (A.same a b p h1).mp h2
  · intro hl
    rcases linked_touched hl with e | ⟨ha, _⟩
    · exact Or.inl e
    · obtain ⟨p, hp⟩ := Option.isSome_iff_exists.mp ((A.touched a).mpr ha)
      exact Or.inr ⟨p, hp, (A.same a b p hp).mpr hl⟩

/-- A chain and a cycle that closes on itself are of this kind. -/
example : Tame [(0, 1), (2, 1), (2, 3), (3, 0)] := by
  intro pre c post e h1 h2
  have hl : pre = [] ∨ pre = [(0, 1)] ∨ pre = [(0, 1), (2, 1)] ∨ pre = [(0, 1), (2, 1), (2, 3)] := by
    rcases pre with _ | ⟨p1, _ | ⟨p2, _ | ⟨p3, _ | ⟨p4, pre⟩⟩⟩⟩ <;> simp_all
  rcases hl with rfl | rfl | rfl | rfl
  · obtain ⟨d, hd, _⟩ := h1; cases hd
  · simp at e
    obtain ⟨rfl, _⟩ := e
    obtain ⟨d, hd, h⟩ := h1
    simp at hd
    subst hd
    simp at h
  · simp at e
    obtain ⟨rfl, _⟩ := e
    obtain ⟨d, hd, h⟩ := h2
    simp at hd
    rcases hd with rfl | rfl <;> simp at h
  · simp at e
    obtain ⟨rfl, _⟩ := e
    refine .symm _ _ (.trans _ 1 _ (.rel _ _ (by simp)) (.trans _ 2 _ (.symm _ _ (.rel _ _ (by simp)))
      (.rel _ _ (by simp))))

/-- C51 is false in general: with two nets `0-1` and `2-3` joined by a connection of `0` and `2`, the
terminals `1` and `3` are linked by the chain `1-0-2-3` but stay on different nets, and the netlist
prints different nodes for them. -/
theorem C51_false : ∃ (nm : ℕ → String) (cs : List (ℕ × ℕ)),
    Linked cs 1 3 ∧ ¬ (Wires.connects nm cs .empty).sameNet 1 3 ∧
    (Wires.connects nm cs .empty).node nm 1 ≠ (Wires.connects nm cs .empty).node nm 3 := by
  refine ⟨fun k => if k = 0 then "A" else if k = 2 then "B" else "C", [(0, 1), (2, 3), (0, 2)], ?_, ?_, ?_⟩
  · exact .trans _ 0 _ (.symm _ _ (.rel _ _ (by simp))) (.trans _ 2 _ (.rel _ _ (by simp))
      (.rel _ _ (by simp)))
  · rintro (h | ⟨p, h1, h2⟩)
    · exact absurd h (by decide)
    · have e1 : (Wires.connects (fun k => if k = 0 then "A" else if k = 2 then "B" else "C")
        [(0, 1), (2, 3), (0, 2)] Wires.empty).port 1 = some 0 := by decide
      have e3 : (Wires.connects (fun k => if k = 0 then "A" else if k = 2 then "B" else "C")
        [(0, 1), (2, 3), (0, 2)] Wires.empty).port 3 = some 1 := by decide
      rw [e1] at h1
      rw [e3, ← h1] at h2
      exact absurd h2 (by decide)
  · decide

/-! ## C89: the nodes of the netlist -/

/-- C89 (every connection attaches a fresh terminal to a hub, hubs have different names): two
connected terminals are printed as the same node exactly when they are linked, and the node carries
the name of the hub. -/
theorem C89_partial (nm : τ → String) (cs : List (τ × τ)) (h : Star cs)
    (hn : ∀ c ∈ cs, nm c.1 ≠ "") (hi : ∀ c ∈ cs, ∀ d ∈ cs, nm c.1 = nm d.1 → c.1 = d.1) :
    (∀ c ∈ cs, (Wires.connects nm cs .empty).node nm c.1 = nm c.1 ∧
      (Wires.connects nm cs .empty).node nm c.2 = nm c.1) ∧
    ∀ a b, Touched cs a → Touched cs b →
      ((Wires.connects nm cs .empty).node nm a = (Wires.connects nm cs .empty).node nm b ↔
        Linked cs a b) := by
  have hnode := star_node nm cs h hn
  refine ⟨hnode, ?_⟩
  -- every connected terminal is linked to a hub, whose name it carries
  have hub : ∀ t, Touched cs t → ∃ c ∈ cs, Linked cs t c.1 ∧
      (Wires.connects nm cs .empty).node nm t = nm c.1 := by
    rintro t ⟨c, hc, rfl | rfl⟩
    · exact ⟨c, hc, .refl _, (hnode c hc).1⟩
    · exact ⟨c, hc, .symm _ _ (.rel _ _ hc), (hnode c hc).2⟩
  -- linked terminals carry the same name
  have same : ∀ a b, Linked cs a b →
      (Wires.connects nm cs .empty).node nm a = (Wires.connects nm cs .empty).node nm b := by
    intro a b hl
    induction hl with
    | rel x y hc => rw [(hnode _ hc).1, (hnode _ hc).2]
    | refl x => rfl
    | symm x y _ ih => exact ih.symm
    | trans x y z _ _ ih1 ih2 => exact ih1.trans ih2
  intro a b ha hb
  constructor
  · intro e
    obtain ⟨c, hc, h1, h2⟩ := hub a ha
    obtain ⟨d, hd, h3, h4⟩ := hub b hb
    rw [h2, h4] at e
    have := hi c hc d hd e
    rw [← this] at h3
    exact .trans _ _ _ h1 (.symm _ _ h3)
  · exact same a b

example : Star [(0, 1), (0, 2), (3, 4)] := by
  refine ⟨?_, ?_⟩ <;> decide

/-- C89 is false in general, since nets are named after terminals and terminals of different elements
have equal names: connecting the output of one element to another, and the output of a third to a
fourth, gives two nets that the netlist prints as one node. -/
theorem C89_false : ∃ (nm : ℕ → String) (cs : List (ℕ × ℕ)), Star cs ∧
    (∀ c ∈ cs, nm c.1 ≠ "") ∧ ¬ Linked cs 1 3 ∧
    (Wires.connects nm cs .empty).node nm 1 = (Wires.connects nm cs .empty).node nm 3 := by
  have hst : Star [(0, 1), (2, 3)] := by refine ⟨?_, ?_⟩ <;> decide
  refine ⟨fun k => if k % 2 = 0 then "OUT" else "IN", [(0, 1), (2, 3)], hst, by decide, ?_, by decide⟩
  intro hl
  -- without name clashes the two nets are told apart
  have h := (C89_partial (fun k : ℕ => if k = 0 then "A" else "B") [(0, 1), (2, 3)] hst
    (by decide) (by decide)).2 1 3 ⟨(0, 1), by simp, Or.inr rfl⟩ ⟨(2, 3), by simp, Or.inr rfl⟩
  exact absurd (h.mpr hl) (by decide)

end Cbadc.Circuit
