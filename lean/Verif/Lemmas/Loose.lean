import Verif.Lemmas.Circuit

/-! # Stars some of whose leaves have been connected with themselves before -/

namespace Cbadc.Circuit
open Spec

variable {τ : Type} [DecidableEq τ]

/-- The state after the connections `cs` of a star, when the terminals `S` were connected with themselves before
they were attached: such a terminal keeps a port of its own until then. -/
structure LooseInv (nm : τ → String) (S : List τ) (cs : List (τ × τ)) (w : Wires τ) : Prop where
  lt : ∀ t p, w.port t = some p → p < w.next
  touched : ∀ t, (w.port t).isSome ↔ Touched cs t ∨ t ∈ S
  net : ∀ c ∈ cs, ∃ p, w.port c.1 = some p ∧ w.port c.2 = some p ∧ w.name p = nm c.1
  hubs : ∀ c ∈ cs, ∀ d ∈ cs, w.port c.1 = w.port d.1 → c.1 = d.1
  loose : ∀ t ∈ S, ¬ Touched cs t → ∀ u p, w.port t = some p → w.port u = some p → u = t

omit [DecidableEq τ] in
theorem looseInv_of_star {nm : τ → String} {cs : List (τ × τ)} {w : Wires τ} (I : StarInv nm cs w) :
    LooseInv nm [] cs w :=
  ⟨I.lt, fun t => by rw [I.touched]; simp, I.net, I.hubs, fun t ht => absurd ht List.not_mem_nil⟩

/-- A terminal that is on no net is connected with itself. -/
theorem looseInv_self {nm : τ → String} {S : List τ} {cs : List (τ × τ)} {w : Wires τ} (I : LooseInv nm S cs w)
    (x : τ) (hx : x ∉ S) (ht : ¬ Touched cs x) (hn : nm x ≠ "") :
    LooseInv nm (x :: S) cs (w.connect nm x x) := by
  have hp : w.port x = none := by
    rcases h : w.port x with _ | p
    · rfl
    · rcases (I.touched x).mp (by rw [h]; rfl) with k | k
      · exact absurd k ht
      · exact absurd k hx
  have hj := join_nn hp hp
  have hpx : (w.join x x).port x = some w.next := by
    rw [hj]; dsimp only
    rw [Function.update_self]
  have hpo : ∀ t, t ≠ x → (w.join x x).port t = w.port t := by
    intro t h
    rw [hj]; dsimp only
    rw [Function.update_of_ne h, Function.update_of_ne h]
  have hnx : (w.join x x).next = w.next + 1 := by rw [hj]
  have hname := connect_name_of (nm := nm) hpx hn
  rw [join_name] at hname
  have hc : ∀ c ∈ cs, c.1 ≠ x ∧ c.2 ≠ x := fun c hc =>
    ⟨fun e => ht ⟨c, hc, Or.inl e.symm⟩, fun e => ht ⟨c, hc, Or.inr e.symm⟩⟩
  refine ⟨?_, ?_, ?_, ?_, ?_⟩
  · intro t p
    rw [connect_port, connect_next, hnx]
    intro h
    by_cases e : t = x
    · rw [e, hpx] at h; obtain rfl := Option.some.inj h; omega
    · rw [hpo t e] at h
      have := I.lt t p h
      omega
  · intro t
    rw [connect_port, List.mem_cons]
    by_cases e : t = x
    · rw [e, hpx]; exact ⟨fun _ => Or.inr (Or.inl rfl), fun _ => rfl⟩
    · rw [hpo t e, I.touched]
      constructor
      · rintro (k | k)
        · exact Or.inl k
        · exact Or.inr (Or.inr k)
      · rintro (k | k | k)
        · exact Or.inl k
        · exact absurd k e
        · exact Or.inr k
  · intro c h
    obtain ⟨p, h1, h2, h3⟩ := I.net c h
    refine ⟨p, ?_, ?_, ?_⟩
    · rw [connect_port, hpo _ (hc c h).1]; exact h1
    · rw [connect_port, hpo _ (hc c h).2]; exact h2
    · have := I.lt _ _ h1
      rw [hname, Function.update_of_ne (by omega)]; exact h3
  · intro c h d h'
    rw [connect_port, hpo _ (hc c h).1, hpo _ (hc d h').1]
    exact I.hubs c h d h'
  · intro t h hnt u p
    rw [connect_port]
    intro h1 h2
    by_cases e : t = x
    · rw [e, hpx] at h1
      by_cases e' : u = x
      · rw [e, e']
      · rw [hpo u e'] at h2
        have := I.lt u p h2
        have := Option.some.inj h1
        omega
    · rw [hpo t e] at h1
      by_cases e' : u = x
      · rw [e', hpx] at h2
        have := I.lt t p h1
        have := Option.some.inj h2
        omega
      · rw [hpo u e'] at h2
        exact I.loose t ((List.mem_cons.mp h).resolve_left e) hnt u p h1 h2

theorem looseInv_selfs {nm : τ → String} (xs : List τ) {S : List τ} {cs : List (τ × τ)} {w : Wires τ}
    (I : LooseInv nm S cs w) (hd : xs.Nodup) (hx : ∀ x ∈ xs, x ∉ S ∧ ¬ Touched cs x ∧ nm x ≠ "") :
    LooseInv nm (xs.reverse ++ S) cs (w.connects nm (xs.map fun x => (x, x))) := by
  induction xs generalizing S w with
  | nil => exact I
  | cons x xs ih =>
    rw [List.reverse_cons, List.append_assoc]
    rw [List.nodup_cons] at hd
    have h0 := hx x List.mem_cons_self
    refine ih (looseInv_self I x h0.1 h0.2.1 h0.2.2) hd.2 ?_
    intro y hy
    have h1 := hx y (List.mem_cons_of_mem _ hy)
    refine ⟨?_, h1.2⟩
    intro k
    rcases List.mem_cons.mp k with k | k
    · exact hd.1 (k ▸ hy)
    · exact h1.1 k

/-- A connection of the star. -/
theorem looseInv_step {nm : τ → String} {S : List τ} {cs : List (τ × τ)} {w : Wires τ} (I : LooseInv nm S cs w)
    (a b : τ) (h : Star (cs ++ [(a, b)])) (ha : a ∉ S) (hna : nm a ≠ "") :
    LooseInv nm S (cs ++ [(a, b)]) (w.connect nm a b) := by
  have hcm : ∀ d ∈ cs, d ∈ cs ++ [(a, b)] := fun d hd => List.mem_append_left _ hd
  have hab' : (a, b) ∈ cs ++ [(a, b)] := List.mem_append_right _ (List.mem_singleton_self _)
  have hab : b ≠ a := h.1 _ hab' _ hab'
  have hbf : ∀ d ∈ cs, b ≠ d.1 := fun d hd => h.1 _ hab' _ (hcm d hd)
  have haf : ∀ d ∈ cs, d.2 ≠ a := fun d hd => h.1 _ (hcm d hd) _ hab'
  have hbs : ∀ d ∈ cs, d.2 = b → d.1 = a := fun d hd e => h.2 _ (hcm d hd) _ hab' e
  -- the port the two terminals end up at
  have key : ∃ p, (w.join a b).port a = some p ∧ (w.join a b).port b = some p ∧
      (∀ t, t ≠ a → t ≠ b → (w.join a b).port t = w.port t) ∧ (w.join a b).next ≥ w.next ∧ p < (w.join a b).next ∧
      (w.port a = some p ∨ (¬ Touched cs a ∧ ¬ Touched cs b ∧ ∀ t, t ≠ a → t ≠ b → w.port t ≠ some p)) := by
    rcases hpa : w.port a with _ | p
    · have hta : ¬ Touched cs a := fun k => by
        have := (I.touched a).mpr (Or.inl k)
        rw [hpa] at this
        exact absurd this (by simp)
      have htb : ¬ Touched cs b := by
        rintro ⟨d, hd, e | e⟩
        · exact hbf d hd e
        · exact hta ⟨d, hd, Or.inl (hbs d hd e.symm).symm⟩
      rcases hpb : w.port b with _ | q
      · have hj := join_nn hpa hpb
        refine ⟨w.next, ?_, ?_, ?_, ?_, ?_, Or.inr ⟨hta, htb, ?_⟩⟩
        · rw [hj]; dsimp only
          rw [Function.update_of_ne hab.symm, Function.update_self]
        · rw [hj]; dsimp only
          rw [Function.update_self]
        · intro t h1 h2
          rw [hj]; dsimp only
          rw [Function.update_of_ne h2, Function.update_of_ne h1]
        · rw [hj]; dsimp only; omega
        · rw [hj]; dsimp only; omega
        · intro t _ _ k
          have := I.lt t _ k
          omega
      · have hj := join_ns hpa hpb
        have hbS : b ∈ S := ((I.touched b).mp (by rw [hpb]; rfl)).resolve_left htb
        refine ⟨q, ?_, ?_, ?_, ?_, ?_, Or.inr ⟨hta, htb, ?_⟩⟩
        · rw [hj]; dsimp only
          rw [Function.update_self]
        · rw [hj]; dsimp only
          rw [Function.update_of_ne hab]; exact hpb
        · intro t h1 _
          rw [hj]; dsimp only
          rw [Function.update_of_ne h1]
        · rw [hj]
        · rw [hj]; exact I.lt b q hpb
        · intro t _ h2 k
          exact h2 (I.loose b hbS htb t q hpb k)
    · have hj := join_ss (b := b) hpa
      refine ⟨p, ?_, ?_, ?_, ?_, ?_, Or.inl rfl⟩
      · rw [hj]; dsimp only
        rw [Function.update_of_ne hab.symm]; exact hpa
      · rw [hj]; dsimp only
        rw [Function.update_self]
      · intro t _ h2
        rw [hj]; dsimp only
        rw [Function.update_of_ne h2]
      · rw [hj]
      · rw [hj]; exact I.lt a p hpa
  obtain ⟨p, hpa, hpb, hpo, hnx, hlt, hcase⟩ := key
  have hname := connect_name_of (nm := nm) hpa hna
  rw [join_name] at hname
  -- a net of the star other than the net of `a`
  have other : ∀ d ∈ cs, d.1 ≠ a → (w.port d.1 ≠ some p ∧ d.2 ≠ a ∧ d.2 ≠ b) := by
    intro d hd hda
    refine ⟨?_, haf d hd, fun e => hda (hbs d hd e)⟩
    intro k
    rcases hcase with hc | ⟨h1, h2, h3⟩
    · -- `a` is a hub
      have hta : Touched cs a := ((I.touched a).mp (by rw [hc]; rfl)).resolve_right ha
      obtain ⟨e, he, e1 | e2⟩ := hta
      · have := I.hubs d hd e he (by rw [k, ← e1, hc])
        exact hda (this.trans e1.symm)
      · exact haf e he e2.symm
    · exact h3 d.1 hda (hbf d hd).symm k
  refine ⟨?_, ?_, ?_, ?_, ?_⟩
  · intro t q
    rw [connect_port, connect_next]
    intro hq
    by_cases e1 : t = a
    · rw [e1, hpa] at hq; obtain rfl := Option.some.inj hq; exact hlt
    · by_cases e2 : t = b
      · rw [e2, hpb] at hq; obtain rfl := Option.some.inj hq; exact hlt
      · rw [hpo t e1 e2] at hq
        have := I.lt t q hq
        omega
  · intro t
    rw [connect_port, touched_snoc]
    by_cases e1 : t = a
    · rw [e1, hpa]; exact ⟨fun _ => Or.inl (Or.inr (Or.inl rfl)), fun _ => rfl⟩
    · by_cases e2 : t = b
      · rw [e2, hpb]; exact ⟨fun _ => Or.inl (Or.inr (Or.inr rfl)), fun _ => rfl⟩
      · rw [hpo t e1 e2, I.touched]
        constructor
        · rintro (k | k)
          · exact Or.inl (Or.inl k)
          · exact Or.inr k
        · rintro ((k | k | k) | k)
          · exact Or.inl k
          · exact absurd k e1
          · exact absurd k e2
          · exact Or.inr k
  · intro d hd
    rw [connect_port, hname]
    rcases List.mem_append.mp hd with hd | hd
    · by_cases hda : d.1 = a
      · refine ⟨p, ?_, ?_, ?_⟩
        · rw [hda]; exact hpa
        · by_cases e : d.2 = b
          · rw [e]; exact hpb
          · rw [hpo _ (haf d hd) e]
            obtain ⟨q, h1, h2, _⟩ := I.net d hd
            rcases hcase with hc | ⟨k, _, _⟩
            · rw [hda, hc] at h1
              obtain rfl := Option.some.inj h1
              exact h2
            · exact absurd ⟨d, hd, Or.inl hda.symm⟩ k
        · rw [Function.update_self, hda]
      · obtain ⟨q, h1, h2, h3⟩ := I.net d hd
        obtain ⟨k1, k2, k3⟩ := other d hd hda
        refine ⟨q, ?_, ?_, ?_⟩
        · rw [hpo _ hda (hbf d hd).symm]; exact h1
        · rw [hpo _ k2 k3]; exact h2
        · rw [Function.update_of_ne]
          · exact h3
          · rintro rfl
            exact k1 h1
    · rw [List.mem_singleton] at hd
      subst hd
      exact ⟨p, hpa, hpb, Function.update_self _ _ _⟩
  · have port : ∀ d ∈ cs ++ [(a, b)], d.1 = a ∧ (w.join a b).port d.1 = some p ∨
        (d ∈ cs ∧ d.1 ≠ a ∧ (w.join a b).port d.1 = w.port d.1 ∧ w.port d.1 ≠ some p) := by
      intro d hd
      by_cases e : d.1 = a
      · exact Or.inl ⟨e, by rw [e]; exact hpa⟩
      · rcases List.mem_append.mp hd with hd | hd
        · exact Or.inr ⟨hd, e, hpo _ e (hbf d hd).symm, (other d hd e).1⟩
        · rw [List.mem_singleton] at hd
          subst hd
          exact absurd rfl e
    intro d hd f hf
    rw [connect_port]
    intro k
    rcases port d hd with ⟨e1, e2⟩ | ⟨e1, _, e2, e3⟩ <;> rcases port f hf with ⟨f1, f2⟩ | ⟨f1, _, f2, f3⟩
    · rw [e1, f1]
    · exact absurd (by rw [← f2, ← k]; exact e2) f3
    · exact absurd (by rw [← e2, k]; exact f2) e3
    · rw [e2, f2] at k
      exact I.hubs d e1 f f1 k
  · intro t ht hnt u q
    rw [touched_snoc] at hnt
    have n1 : ¬ Touched cs t := fun k => hnt (Or.inl k)
    have n2 : t ≠ a := fun k => hnt (Or.inr (Or.inl k))
    have n3 : t ≠ b := fun k => hnt (Or.inr (Or.inr k))
    rw [connect_port, hpo t n2 n3]
    intro h1 h2
    have hqp : q ≠ p := by
      rintro rfl
      rcases hcase with hc | ⟨_, _, k⟩
      · exact n2 (I.loose t ht n1 a q h1 hc).symm
      · exact k t n2 n3 h1
    have e1 : u ≠ a := by
      rintro rfl
      rw [hpa] at h2
      exact hqp (Option.some.inj h2).symm
    have e2 : u ≠ b := by
      rintro rfl
      rw [hpb] at h2
      exact hqp (Option.some.inj h2).symm
    rw [hpo u e1 e2] at h2
    exact I.loose t ht n1 u q h1 h2

theorem looseInv_connects {nm : τ → String} {S : List τ} (ds : List (τ × τ)) {cs : List (τ × τ)} {w : Wires τ}
    (I : LooseInv nm S cs w) (h : Star (cs ++ ds)) (hS : ∀ c ∈ ds, c.1 ∉ S ∧ nm c.1 ≠ "") :
    LooseInv nm S (cs ++ ds) (w.connects nm ds) := by
  induction ds generalizing cs w with
  | nil => rw [List.append_nil]; exact I
  | cons d ds ih =>
    have e : cs ++ d :: ds = (cs ++ [d]) ++ ds := by simp
    rw [e] at h ⊢
    have h0 := hS d List.mem_cons_self
    exact ih (looseInv_step I d.1 d.2 (star_prefix h) h0.1 h0.2) h (fun c hc => hS c (List.mem_cons_of_mem _ hc))

/-- In a star, some of whose leaves are connected with themselves on the way, every terminal is printed under the
name of its hub. -/
theorem loose_node (nm : τ → String) (pre post : List (τ × τ)) (xs : List τ) (h : Star (pre ++ post))
    (hn : ∀ c ∈ pre ++ post, nm c.1 ≠ "") (hd : xs.Nodup) (hx : ∀ x ∈ xs, ¬ Touched pre x ∧ nm x ≠ "")
    (hh : ∀ c ∈ post, c.1 ∉ xs) (c : τ × τ) (hc : c ∈ pre ++ post) :
    (Wires.connects nm (pre ++ (xs.map fun x => (x, x)) ++ post) .empty).node nm c.2 = nm c.1 := by
  have I0 := starInv_connects nm pre (star_prefix h) (fun d hd => hn d (List.mem_append_left _ hd))
  have I1 := looseInv_selfs xs (looseInv_of_star I0) hd (fun x k => ⟨List.not_mem_nil, hx x k⟩)
  have I2 := looseInv_connects post I1 h (fun d k => ⟨by
    rw [List.append_nil, List.mem_reverse]; exact hh d k, hn d (List.mem_append_right _ k)⟩)
  rw [← connects_append, ← connects_append, ← List.append_assoc] at I2
  obtain ⟨p, h1, h2, h3⟩ := I2.net c hc
  unfold Wires.node
  rw [h2]
  dsimp only
  rw [h3, if_pos (hn c hc)]

/-! ### Terminals stay connected -/

theorem connect_isSome (nm : τ → String) (w : Wires τ) (a b t : τ) (h : (w.port t).isSome ∨ t = b) :
    ((w.connect nm a b).port t).isSome := by
  rw [connect_port]
  rcases ha : w.port a with _ | p
  · rcases hb : w.port b with _ | q
    · rw [join_nn ha hb]
      dsimp only
      by_cases e : t = b
      · rw [e, Function.update_self]; rfl
      · rw [Function.update_of_ne e]
        by_cases e' : t = a
        · rw [e', Function.update_self]; rfl
        · rw [Function.update_of_ne e']; exact h.resolve_right e
    · rw [join_ns ha hb]
      dsimp only
      by_cases e' : t = a
      · rw [e', Function.update_self]; rfl
      · rw [Function.update_of_ne e']
        rcases h with h | h
        · exact h
        · rw [h, hb]; rfl
  · rw [join_ss ha]
    dsimp only
    by_cases e : t = b
    · rw [e, Function.update_self]; rfl
    · rw [Function.update_of_ne e]; exact h.resolve_right e

theorem connects_isSome (nm : τ → String) (cs : List (τ × τ)) (w : Wires τ) (t : τ)
    (h : (w.port t).isSome ∨ ∃ c ∈ cs, c.2 = t) : ((w.connects nm cs).port t).isSome := by
  induction cs generalizing w with
  | nil =>
    rcases h with h | ⟨c, hc, _⟩
    · exact h
    · exact absurd hc List.not_mem_nil
  | cons c cs ih =>
    refine ih (w.connect nm c.1 c.2) ?_
    rcases h with h | ⟨d, hd, e⟩
    · exact Or.inl (connect_isSome nm w c.1 c.2 t (Or.inl h))
    · rcases List.mem_cons.mp hd with rfl | hd
      · exact Or.inl (connect_isSome nm w d.1 d.2 t (Or.inr e.symm))
      · exact Or.inr ⟨d, hd, e⟩

end Cbadc.Circuit
