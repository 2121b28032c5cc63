import Verif.Spec.Circuit
import Std.Data.String.ToNat
import Mathlib.Data.List.Nodup

/-! # Lemmas on connections, names and netlists -/

namespace Cbadc.Circuit

open Spec

variable {τ : Type} [DecidableEq τ]

theorem connects_append (nm : τ → String) (cs ds : List (τ × τ)) (w : Wires τ) :
    w.connects nm (cs ++ ds) = (w.connects nm cs).connects nm ds := by
  unfold Wires.connects
  rw [List.foldl_append]

theorem connects_snoc (nm : τ → String) (cs : List (τ × τ)) (c : τ × τ) (w : Wires τ) :
    w.connects nm (cs ++ [c]) = (w.connects nm cs).connect nm c.1 c.2 := by
  rw [connects_append]; rfl

/-! ### Ports -/

omit [DecidableEq τ] in
theorem rename_port (nm : τ → String) (w : Wires τ) (a b : τ) (s : String) :
    (w.rename nm a b s).port = w.port := by
  unfold Wires.rename
  split <;> rfl

omit [DecidableEq τ] in
theorem rename_next (nm : τ → String) (w : Wires τ) (a b : τ) (s : String) :
    (w.rename nm a b s).next = w.next := by
  unfold Wires.rename
  split <;> rfl

theorem connect_port (nm : τ → String) (w : Wires τ) (a b : τ) :
    (w.connect nm a b).port = (w.join a b).port := rename_port _ _ _ _ _

theorem connect_next (nm : τ → String) (w : Wires τ) (a b : τ) :
    (w.connect nm a b).next = (w.join a b).next := rename_next _ _ _ _ _

theorem join_ss {w : Wires τ} {a b : τ} {p : ℕ} (ha : w.port a = some p) :
    (w.join a b) = { w with port := Function.update w.port b (some p) } := by
  unfold Wires.join
  rw [ha]
  cases w.port b <;> rfl

theorem join_ns {w : Wires τ} {a b : τ} {q : ℕ} (ha : w.port a = none) (hb : w.port b = some q) :
    (w.join a b) = { w with port := Function.update w.port a (some q) } := by
  unfold Wires.join
  rw [ha, hb]

theorem join_nn {w : Wires τ} {a b : τ} (ha : w.port a = none) (hb : w.port b = none) :
    (w.join a b) = { w with
      port := Function.update (Function.update w.port a (some w.next)) b (some w.next),
      next := w.next + 1 } := by
  unfold Wires.join
  rw [ha, hb]

omit [DecidableEq τ] in
theorem linked_mono {cs ds : List (τ × τ)} (h : ∀ c ∈ cs, c ∈ ds) {a b : τ} (hab : Linked cs a b) :
    Linked ds a b := by
  induction hab with
  | rel x y hc => exact .rel _ _ (h _ hc)
  | refl x => exact .refl _
  | symm x y _ ih => exact .symm _ _ ih
  | trans x y z _ _ ih1 ih2 => exact .trans _ _ _ ih1 ih2

omit [DecidableEq τ] in
theorem linked_touched {cs : List (τ × τ)} {a b : τ} (h : Linked cs a b) :
    a = b ∨ (Touched cs a ∧ Touched cs b) := by
  induction h with
  | rel x y hc => exact Or.inr ⟨⟨_, hc, Or.inl rfl⟩, ⟨_, hc, Or.inr rfl⟩⟩
  | refl x => exact Or.inl rfl
  | symm x y _ ih =>
    rcases ih with h | ⟨h1, h2⟩
    · exact Or.inl h.symm
    · exact Or.inr ⟨h2, h1⟩
  | trans x y z _ _ ih1 ih2 =>
    rcases ih1 with h | ⟨h1, h2⟩
    · subst h; exact ih2
    · rcases ih2 with h | ⟨h3, h4⟩
      · subst h; exact Or.inr ⟨h1, h2⟩
      · exact Or.inr ⟨h1, h4⟩

/-- What the connections look like while they agree with the nets. -/
structure Agrees (cs : List (τ × τ)) (w : Wires τ) : Prop where
  lt : ∀ t p, w.port t = some p → p < w.next
  touched : ∀ t, (w.port t).isSome ↔ Touched cs t
  same : ∀ a b p, w.port a = some p → (w.port b = some p ↔ Linked cs a b)

omit [DecidableEq τ] in
theorem touched_snoc {cs : List (τ × τ)} {c : τ × τ} {t : τ} :
    Touched (cs ++ [c]) t ↔ Touched cs t ∨ t = c.1 ∨ t = c.2 := by
  unfold Touched
  constructor
  · rintro ⟨d, hd, h⟩
    rcases List.mem_append.mp hd with hd | hd
    · exact Or.inl ⟨d, hd, h⟩
    · rw [List.mem_singleton] at hd; subst hd; exact Or.inr h
  · rintro (⟨d, hd, h⟩ | h)
    · exact ⟨d, List.mem_append_left _ hd, h⟩
    · exact ⟨c, List.mem_append_right _ (List.mem_singleton_self c), h⟩

omit [DecidableEq τ] in
/-- Chains through one more connection. -/
theorem linked_snoc {cs : List (τ × τ)} {c : τ × τ} {a b : τ} :
    Linked (cs ++ [c]) a b ↔ Linked cs a b ∨ (Linked cs a c.1 ∧ Linked cs c.2 b) ∨
      (Linked cs a c.2 ∧ Linked cs c.1 b) := by
  constructor
  · intro h
    induction h with
    | rel x y hc =>
      rcases List.mem_append.mp hc with hc | hc
      · exact Or.inl (.rel _ _ hc)
      · rw [List.mem_singleton] at hc
        subst hc
        exact Or.inr (Or.inl ⟨.refl _, .refl _⟩)
    | refl x => exact Or.inl (.refl _)
    | symm x y _ ih =>
      rcases ih with h | ⟨h1, h2⟩ | ⟨h1, h2⟩
      · exact Or.inl (.symm _ _ h)
      · exact Or.inr (Or.inr ⟨.symm _ _ h2, .symm _ _ h1⟩)
      · exact Or.inr (Or.inl ⟨.symm _ _ h2, .symm _ _ h1⟩)
    | trans x y z _ _ ih1 ih2 =>
      rcases ih1 with h | ⟨h1, h2⟩ | ⟨h1, h2⟩ <;> rcases ih2 with k | ⟨k1, k2⟩ | ⟨k1, k2⟩
      · exact Or.inl (.trans _ _ _ h k)
      · exact Or.inr (Or.inl ⟨.trans _ _ _ h k1, k2⟩)
      · exact Or.inr (Or.inr ⟨.trans _ _ _ h k1, k2⟩)
      · exact Or.inr (Or.inl ⟨h1, .trans _ _ _ h2 k⟩)
      · exact Or.inr (Or.inl ⟨h1, k2⟩)
      · exact Or.inl (.trans _ _ _ h1 k2)
      · exact Or.inr (Or.inr ⟨h1, .trans _ _ _ h2 k⟩)
      · exact Or.inl (.trans _ _ _ h1 k2)
      · exact Or.inr (Or.inr ⟨h1, k2⟩)
  · rintro (h | ⟨h1, h2⟩ | ⟨h1, h2⟩)
    · exact linked_mono (fun _ hc => List.mem_append_left _ hc) h
    · have e : Linked (cs ++ [c]) c.1 c.2 :=
        .rel _ _ (List.mem_append_right _ (List.mem_singleton_self c))
      exact .trans _ _ _ (linked_mono (fun _ hc => List.mem_append_left _ hc) h1)
        (.trans _ _ _ e (linked_mono (fun _ hc => List.mem_append_left _ hc) h2))
    · have e : Linked (cs ++ [c]) c.2 c.1 :=
        .symm _ _ (.rel _ _ (List.mem_append_right _ (List.mem_singleton_self c)))
      exact .trans _ _ _ (linked_mono (fun _ hc => List.mem_append_left _ hc) h1)
        (.trans _ _ _ e (linked_mono (fun _ hc => List.mem_append_left _ hc) h2))

omit [DecidableEq τ] in
theorem linked_untouched {cs : List (τ × τ)} {a b : τ} (ha : ¬ Touched cs a) (h : Linked cs a b) :
    a = b := by
  classical
  rcases linked_touched h with h | ⟨h, _⟩
  · exact h
  · exact absurd h ha

/-- Adding an untouched terminal `b` to the port of `a`. -/
theorem agrees_attach {cs : List (τ × τ)} {w : Wires τ} (h : Agrees cs w) {a b : τ} {p : ℕ}
    (ha : w.port a = some p) (hb : ¬ Touched cs b) :
    Agrees (cs ++ [(a, b)]) { w with port := Function.update w.port b (some p) } := by
  have hta : Touched cs a := (h.touched a).mp (by rw [ha]; rfl)
  have hab : a ≠ b := fun e => hb (e ▸ hta)
  refine ⟨?_, ?_, ?_⟩
  · intro t q hq
    dsimp only at hq
    by_cases e : t = b
    · rw [e, Function.update_self] at hq
      obtain rfl := Option.some.inj hq
      exact h.lt a _ ha
    · rw [Function.update_of_ne e] at hq
      exact h.lt t q hq
  · intro t
    rw [touched_snoc]
    dsimp only
    by_cases e : t = b
    · rw [e, Function.update_self]
      exact ⟨fun _ => Or.inr (Or.inr rfl), fun _ => rfl⟩
    · rw [Function.update_of_ne e, h.touched]
      constructor
      · exact Or.inl
      · rintro (k | k | k)
        · exact k
        · rw [k]; exact hta
        · exact absurd k e
  · intro x y q hx
    rw [linked_snoc]
    dsimp only at hx ⊢
    by_cases ex : x = b
    · rw [ex, Function.update_self] at hx
      obtain rfl := Option.some.inj hx
      by_cases ey : y = b
      · rw [ey, Function.update_self, ex]
        exact ⟨fun _ => Or.inl (.refl _), fun _ => rfl⟩
      · rw [Function.update_of_ne ey, h.same a y p ha, ex]
        constructor
        · intro k
          exact Or.inr (Or.inr ⟨.refl _, k⟩)
        · rintro (k | ⟨_, k⟩ | ⟨_, k⟩)
          · exact absurd (linked_untouched hb k).symm ey
          · exact absurd (linked_untouched hb k).symm ey
          · exact k
    · rw [Function.update_of_ne ex] at hx
      have htx : Touched cs x := (h.touched x).mp (by rw [hx]; rfl)
      by_cases ey : y = b
      · rw [ey, Function.update_self]
        constructor
        · intro k
          obtain rfl := Option.some.inj k
          exact Or.inr (Or.inl ⟨(h.same x a p hx).mp ha, .refl _⟩)
        · rintro (k | ⟨k, _⟩ | ⟨k, _⟩)
          · exact absurd (linked_untouched hb (.symm _ _ k)).symm ex
          · rw [(h.same x a q hx).mpr k] at ha
            exact ha.symm
          · exact absurd (linked_untouched hb (.symm _ _ k)).symm ex
      · rw [Function.update_of_ne ey, h.same x y q hx]
        constructor
        · exact Or.inl
        · rintro (k | ⟨k, k'⟩ | ⟨k, k'⟩)
          · exact k
          · exact absurd (linked_untouched hb k').symm ey
          · exact absurd (linked_untouched hb (.symm _ _ k)).symm ex

omit [DecidableEq τ] in
theorem agrees_swap {cs : List (τ × τ)} {w : Wires τ} {a b : τ} (h : Agrees (cs ++ [(a, b)]) w) :
    Agrees (cs ++ [(b, a)]) w := by
  refine ⟨h.lt, ?_, ?_⟩
  · intro t
    rw [h.touched, touched_snoc, touched_snoc]
    tauto
  · intro x y p hx
    rw [h.same x y p hx, linked_snoc, linked_snoc]
    tauto

/-- One more connection that does not merge two nets. -/
theorem agrees_step {nm : τ → String} {cs : List (τ × τ)} {w : Wires τ} (h : Agrees cs w)
    (c : τ × τ) (hc : Touched cs c.1 → Touched cs c.2 → Linked cs c.1 c.2) :
    Agrees (cs ++ [c]) (w.connect nm c.1 c.2) := by
  obtain ⟨a, b⟩ := c
  dsimp only at hc ⊢
  have key : Agrees (cs ++ [(a, b)]) (w.join a b) := by
    rcases ha : w.port a with _ | p
    · have hta : ¬ Touched cs a := fun k => by
        have := (h.touched a).mpr k
        rw [ha] at this
        exact absurd this (by simp)
      rcases hb : w.port b with _ | q
      · have htb : ¬ Touched cs b := fun k => by
          have := (h.touched b).mpr k
          rw [hb] at this
          exact absurd this (by simp)
        rw [join_nn ha hb]
        refine ⟨?_, ?_, ?_⟩
        · intro t p hp
          dsimp only at hp ⊢
          by_cases eb : t = b
          · rw [eb, Function.update_self] at hp
            obtain rfl := Option.some.inj hp
            omega
          · rw [Function.update_of_ne eb] at hp
            by_cases ea : t = a
            · rw [ea, Function.update_self] at hp
              obtain rfl := Option.some.inj hp
              omega
            · rw [Function.update_of_ne ea] at hp
              have := h.lt t p hp
              omega
        · intro t
          rw [touched_snoc]
          dsimp only
          by_cases eb : t = b
          · rw [eb, Function.update_self]
            exact ⟨fun _ => Or.inr (Or.inr rfl), fun _ => rfl⟩
          · rw [Function.update_of_ne eb]
            by_cases ea : t = a
            · rw [ea, Function.update_self]
              exact ⟨fun _ => Or.inr (Or.inl rfl), fun _ => rfl⟩
            · rw [Function.update_of_ne ea, h.touched]
              constructor
              · exact Or.inl
              · rintro (k | k | k)
                · exact k
                · exact absurd k ea
                · exact absurd k eb
        · have new : ∀ t, (t = a ∨ t = b) ↔
              Function.update (Function.update w.port a (some w.next)) b (some w.next) t
                = some w.next := by
            intro t
            by_cases eb : t = b
            · rw [eb, Function.update_self]; simp
            · rw [Function.update_of_ne eb]
              by_cases ea : t = a
              · rw [ea, Function.update_self]; simp
              · rw [Function.update_of_ne ea]
                constructor
                · rintro (k | k)
                  · exact absurd k ea
                  · exact absurd k eb
                · intro k
                  have := h.lt t _ k
                  omega
          have old : ∀ t, ¬ (t = a ∨ t = b) →
              Function.update (Function.update w.port a (some w.next)) b (some w.next) t
                = w.port t := by
            intro t ht
            rw [Function.update_of_ne (fun k => ht (Or.inr k)),
              Function.update_of_ne (fun k => ht (Or.inl k))]
          intro x y q hx
          rw [linked_snoc]
          dsimp only at hx ⊢
          by_cases ex : x = a ∨ x = b
          · rw [(new x).mp ex] at hx
            obtain rfl := Option.some.inj hx
            rw [← new y]
            constructor
            · rcases ex with rfl | rfl
              · rintro (rfl | rfl)
                · exact Or.inl (.refl _)
                · exact Or.inr (Or.inl ⟨.refl _, .refl _⟩)
              · rintro (rfl | rfl)
                · exact Or.inr (Or.inr ⟨.refl _, .refl _⟩)
                · exact Or.inl (.refl _)
            · rintro (k | ⟨_, k⟩ | ⟨_, k⟩)
              · rcases ex with rfl | rfl
                · exact Or.inl (linked_untouched hta k).symm
                · exact Or.inr (linked_untouched htb k).symm
              · exact Or.inr (linked_untouched htb k).symm
              · exact Or.inl (linked_untouched hta k).symm
          · rw [old x ex] at hx
            have hq := h.lt x q hx
            by_cases ey : y = a ∨ y = b
            · rw [(new y).mp ey]
              constructor
              · intro k
                have := Option.some.inj k
                omega
              · have hxa : ¬ Linked cs x a := fun k =>
                  ex (Or.inl (linked_untouched hta (.symm _ _ k)).symm)
                have hxb : ¬ Linked cs x b := fun k =>
                  ex (Or.inr (linked_untouched htb (.symm _ _ k)).symm)
                rintro (k | ⟨k, _⟩ | ⟨k, _⟩)
                · rcases ey with rfl | rfl
                  · exact absurd k hxa
                  · exact absurd k hxb
                · exact absurd k hxa
                · exact absurd k hxb
            · rw [old y ey, h.same x y q hx]
              constructor
              · exact Or.inl
              · rintro (k | ⟨k, _⟩ | ⟨k, _⟩)
                · exact k
                · exact absurd (Or.inl (linked_untouched hta (.symm _ _ k)).symm) ex
                · exact absurd (Or.inr (linked_untouched htb (.symm _ _ k)).symm) ex
      · rw [join_ns ha hb]
        exact agrees_swap (agrees_attach h hb hta)
    · rw [join_ss ha]
      rcases hb : w.port b with _ | q
      · have htb : ¬ Touched cs b := fun k => by
          have := (h.touched b).mpr k
          rw [hb] at this
          exact absurd this (by simp)
        exact agrees_attach h ha htb
      · have hta : Touched cs a := (h.touched a).mp (by rw [ha]; rfl)
        have htb : Touched cs b := (h.touched b).mp (by rw [hb]; rfl)
        have hl := hc hta htb
        have hbp : w.port b = some p := (h.same a b p ha).mpr hl
        have e : Function.update w.port b (some p) = w.port := by
          rw [← hbp, Function.update_eq_self]
        rw [e]
        refine ⟨h.lt, ?_, ?_⟩
        · intro t
          rw [h.touched, touched_snoc]
          constructor
          · exact Or.inl
          · rintro (k | k | k)
            · exact k
            · rw [k]; exact hta
            · rw [k]; exact htb
        · intro x y r hx
          dsimp only at hx ⊢
          rw [h.same x y r hx, linked_snoc]
          constructor
          · exact Or.inl
          · rintro (k | ⟨k, k'⟩ | ⟨k, k'⟩)
            · exact k
            · exact .trans _ _ _ k (.trans _ _ _ hl k')
            · exact .trans _ _ _ k (.trans _ _ _ (.symm _ _ hl) k')
  refine ⟨?_, ?_, ?_⟩
  · intro t p
    rw [connect_port, connect_next]
    exact key.lt t p
  · intro t
    rw [connect_port]
    exact key.touched t
  · intro x y p
    rw [connect_port]
    exact key.same x y p

omit [DecidableEq τ] in
theorem agrees_empty : Agrees ([] : List (τ × τ)) Wires.empty := by
  refine ⟨?_, ?_, ?_⟩
  · intro t p h; exact absurd h (by simp [Wires.empty])
  · intro t; simp [Wires.empty, Touched]
  · intro a b p h; exact absurd h (by simp [Wires.empty])

omit [DecidableEq τ] in
theorem tame_prefix {cs ds : List (τ × τ)} (h : Tame (cs ++ ds)) : Tame cs := by
  intro pre c post e
  exact h pre c (post ++ ds) (by rw [e]; simp)

theorem agrees_connects (nm : τ → String) (cs : List (τ × τ)) (h : Tame cs) :
    Agrees cs (Wires.connects nm cs .empty) := by
  induction cs using List.reverseRecOn with
  | nil => exact agrees_empty
  | append_singleton cs c ih =>
    rw [connects_snoc]
    exact agrees_step (ih (tame_prefix h)) c (h cs c [] rfl)

/-! ### Names of nets -/

theorem connect_name_of {nm : τ → String} {w : Wires τ} {a b : τ} {p : ℕ}
    (h : (w.join a b).port a = some p) (ha : nm a ≠ "") :
    (w.connect nm a b).name = Function.update (w.join a b).name p (nm a) := by
  unfold Wires.connect Wires.rename
  rw [h]
  dsimp only
  rw [if_neg (by simp), if_pos ha]

theorem join_name (w : Wires τ) (a b : τ) : (w.join a b).name = w.name := by
  unfold Wires.join
  split <;> rfl

/-- The state of the connections of a star: hubs have their own port, named after them. -/
structure StarInv (nm : τ → String) (cs : List (τ × τ)) (w : Wires τ) : Prop where
  lt : ∀ t p, w.port t = some p → p < w.next
  touched : ∀ t, (w.port t).isSome ↔ Touched cs t
  net : ∀ c ∈ cs, ∃ p, w.port c.1 = some p ∧ w.port c.2 = some p ∧ w.name p = nm c.1
  hubs : ∀ c ∈ cs, ∀ d ∈ cs, w.port c.1 = w.port d.1 → c.1 = d.1

omit [DecidableEq τ] in
theorem star_prefix {cs ds : List (τ × τ)} (h : Star (cs ++ ds)) : Star cs :=
  ⟨fun c hc d hd => h.1 c (List.mem_append_left _ hc) d (List.mem_append_left _ hd),
   fun c hc d hd => h.2 c (List.mem_append_left _ hc) d (List.mem_append_left _ hd)⟩

theorem starInv_connects (nm : τ → String) (cs : List (τ × τ)) (h : Star cs)
    (hn : ∀ c ∈ cs, nm c.1 ≠ "") : StarInv nm cs (Wires.connects nm cs .empty) := by
  induction cs using List.reverseRecOn with
  | nil =>
    refine ⟨?_, ?_, ?_, ?_⟩
    · intro t p h; exact absurd h (by simp [Wires.empty, Wires.connects])
    · intro t; simp [Wires.empty, Touched, Wires.connects]
    · intro c hc; cases hc
    · intro c hc; cases hc
  | append_singleton cs c ih =>
    have I := ih (star_prefix h) (fun d hd => hn d (List.mem_append_left _ hd))
    rw [connects_snoc]
    obtain ⟨w, hw⟩ : ∃ w, w = Wires.connects nm cs .empty := ⟨_, rfl⟩
    rw [← hw] at I ⊢
    obtain ⟨a, b⟩ := c
    dsimp only
    have hcm : ∀ d ∈ cs, d ∈ cs ++ [(a, b)] := fun d hd => List.mem_append_left _ hd
    have hab' : (a, b) ∈ cs ++ [(a, b)] := List.mem_append_right _ (List.mem_singleton_self _)
    have hab : b ≠ a := h.1 _ hab' _ hab'
    have hbf : ∀ d ∈ cs, b ≠ d.1 := fun d hd => h.1 _ hab' _ (hcm d hd)
    have haf : ∀ d ∈ cs, d.2 ≠ a := fun d hd => h.1 _ (hcm d hd) _ hab'
    have hbs : ∀ d ∈ cs, d.2 = b → d.1 = a := fun d hd e => h.2 _ (hcm d hd) _ hab' e
    have hna : nm a ≠ "" := hn _ hab'
    rcases ha : w.port a with _ | p
    · have hta : ¬ Touched cs a := fun k => by
        have := (I.touched a).mpr k
        rw [ha] at this
        exact absurd this (by simp)
      have htb : ¬ Touched cs b := by
        rintro ⟨d, hd, e | e⟩
        · exact hbf d hd e
        · exact hta ⟨d, hd, Or.inl (hbs d hd e.symm).symm⟩
      have hb : w.port b = none := by
        rcases hb : w.port b with _ | q
        · rfl
        · exact absurd ((I.touched b).mp (by rw [hb]; rfl)) htb
      have hj := join_nn ha hb
      have hpa : (w.join a b).port a = some w.next := by
        rw [hj]; dsimp only
        rw [Function.update_of_ne hab.symm, Function.update_self]
      have hpb : (w.join a b).port b = some w.next := by
        rw [hj]; dsimp only
        rw [Function.update_self]
      have hpo : ∀ t, t ≠ a → t ≠ b → (w.join a b).port t = w.port t := by
        intro t h1 h2
        rw [hj]; dsimp only
        rw [Function.update_of_ne h2, Function.update_of_ne h1]
      have hnx : (w.join a b).next = w.next + 1 := by rw [hj]
      have hname := connect_name_of (nm := nm) hpa hna
      rw [join_name] at hname
      refine ⟨?_, ?_, ?_, ?_⟩
      · intro t q
        rw [connect_port, connect_next, hnx]
        intro hq
        by_cases e1 : t = a
        · rw [e1, hpa] at hq; obtain rfl := Option.some.inj hq; omega
        · by_cases e2 : t = b
          · rw [e2, hpb] at hq; obtain rfl := Option.some.inj hq; omega
          · rw [hpo t e1 e2] at hq
            have := I.lt t q hq
            omega
      · intro t
        rw [connect_port, touched_snoc]
        by_cases e1 : t = a
        · rw [e1, hpa]; exact ⟨fun _ => Or.inr (Or.inl rfl), fun _ => rfl⟩
        · by_cases e2 : t = b
          · rw [e2, hpb]; exact ⟨fun _ => Or.inr (Or.inr rfl), fun _ => rfl⟩
          · rw [hpo t e1 e2, I.touched]
            constructor
            · exact Or.inl
            · rintro (k | k | k)
              · exact k
              · exact absurd k e1
              · exact absurd k e2
      · intro d hd
        rw [connect_port, hname]
        rcases List.mem_append.mp hd with hd | hd
        · obtain ⟨q, h1, h2, h3⟩ := I.net d hd
          have hda : d.1 ≠ a := fun e => hta ⟨d, hd, Or.inl e.symm⟩
          have hdb : d.2 ≠ b := fun e => htb ⟨d, hd, Or.inr e.symm⟩
          refine ⟨q, ?_, ?_, ?_⟩
          · rw [hpo _ hda (hbf d hd).symm]; exact h1
          · rw [hpo _ (haf d hd) hdb]; exact h2
          · have := I.lt _ _ h1
            rw [Function.update_of_ne (by omega)]
            exact h3
        · rw [List.mem_singleton] at hd
          subst hd
          exact ⟨w.next, hpa, hpb, Function.update_self _ _ _⟩
      · intro d hd f hf
        rw [connect_port]
        rcases List.mem_append.mp hd with hd | hd <;> rcases List.mem_append.mp hf with hf | hf
        · have hda : d.1 ≠ a := fun e => hta ⟨d, hd, Or.inl e.symm⟩
          have hfa : f.1 ≠ a := fun e => hta ⟨f, hf, Or.inl e.symm⟩
          rw [hpo _ hda (hbf d hd).symm, hpo _ hfa (hbf f hf).symm]
          exact I.hubs d hd f hf
        · rw [List.mem_singleton] at hf
          subst hf
          have hda : d.1 ≠ a := fun e => hta ⟨d, hd, Or.inl e.symm⟩
          rw [hpo _ hda (hbf d hd).symm, hpa]
          intro e
          have := I.lt _ _ e
          omega
        · rw [List.mem_singleton] at hd
          subst hd
          have hfa : f.1 ≠ a := fun e => hta ⟨f, hf, Or.inl e.symm⟩
          rw [hpo _ hfa (hbf f hf).symm, hpa]
          intro e
          have := I.lt _ _ e.symm
          omega
        · rw [List.mem_singleton] at hd hf
          rw [hd, hf]
          intro _
          rfl
    · have hj := join_ss (b := b) ha
      have hta : Touched cs a := (I.touched a).mp (by rw [ha]; rfl)
      have hpa : (w.join a b).port a = some p := by
        rw [hj]; dsimp only
        rw [Function.update_of_ne hab.symm]; exact ha
      have hpb : (w.join a b).port b = some p := by
        rw [hj]; dsimp only
        rw [Function.update_self]
      have hpo : ∀ t, t ≠ b → (w.join a b).port t = w.port t := by
        intro t h2
        rw [hj]; dsimp only
        rw [Function.update_of_ne h2]
      have hnx : (w.join a b).next = w.next := by rw [hj]
      have hname := connect_name_of (nm := nm) hpa hna
      rw [join_name] at hname
      -- `a` is a hub
      have hub : ∃ d ∈ cs, d.1 = a := by
        obtain ⟨d, hd, e | e⟩ := hta
        · exact ⟨d, hd, e.symm⟩
        · exact absurd e.symm (haf d hd)
      obtain ⟨d0, hd0, e0⟩ := hub
      have hpn : w.name p = nm a := by
        obtain ⟨q, h1, _, h3⟩ := I.net d0 hd0
        rw [e0] at h1 h3
        rw [ha] at h1
        obtain rfl := Option.some.inj h1
        exact h3
      have hname' : (w.connect nm a b).name = w.name := by
        rw [hname, ← hpn, Function.update_eq_self]
      refine ⟨?_, ?_, ?_, ?_⟩
      · intro t q
        rw [connect_port, connect_next, hnx]
        intro hq
        by_cases e2 : t = b
        · rw [e2, hpb] at hq; obtain rfl := Option.some.inj hq; exact I.lt a _ ha
        · rw [hpo t e2] at hq
          exact I.lt t q hq
      · intro t
        rw [connect_port, touched_snoc]
        by_cases e2 : t = b
        · rw [e2, hpb]; exact ⟨fun _ => Or.inr (Or.inr rfl), fun _ => rfl⟩
        · rw [hpo t e2, I.touched]
          constructor
          · exact Or.inl
          · rintro (k | k | k)
            · exact k
            · rw [k]; exact hta
            · exact absurd k e2
      · intro d hd
        rw [connect_port, hname']
        rcases List.mem_append.mp hd with hd | hd
        · obtain ⟨q, h1, h2, h3⟩ := I.net d hd
          refine ⟨q, ?_, ?_, h3⟩
          · rw [hpo _ (hbf d hd).symm]; exact h1
          · by_cases e : d.2 = b
            · have := hbs d hd e
              rw [this, ha] at h1
              obtain rfl := Option.some.inj h1
              rw [e]; exact hpb
            · rw [hpo _ e]; exact h2
        · rw [List.mem_singleton] at hd
          subst hd
          exact ⟨p, hpa, hpb, hpn⟩
      · have hub' : ∀ d ∈ cs ++ [(a, b)], ∃ f ∈ cs, f.1 = d.1 := by
          intro d hd
          rcases List.mem_append.mp hd with hd | hd
          · exact ⟨d, hd, rfl⟩
          · rw [List.mem_singleton] at hd
            subst hd
            exact ⟨d0, hd0, e0⟩
        intro d hd f hf
        obtain ⟨d', hd', ed⟩ := hub' d hd
        obtain ⟨f', hf', ef⟩ := hub' f hf
        rw [connect_port, ← ed, ← ef, hpo _ (hbf d' hd').symm, hpo _ (hbf f' hf').symm]
        exact I.hubs d' hd' f' hf'

/-- In a star every terminal is printed under the name of its hub. -/
theorem star_node (nm : τ → String) (cs : List (τ × τ)) (h : Star cs)
    (hn : ∀ c ∈ cs, nm c.1 ≠ "") (c : τ × τ) (hc : c ∈ cs) :
    (Wires.connects nm cs .empty).node nm c.1 = nm c.1 ∧
    (Wires.connects nm cs .empty).node nm c.2 = nm c.1 := by
  obtain ⟨p, h1, h2, h3⟩ := (starInv_connects nm cs h hn).net c hc
  unfold Wires.node
  rw [h1, h2]
  dsimp only
  rw [h3, if_pos (hn c hc)]
  exact ⟨rfl, rfl⟩

/-! ### Running the statements of a constructor -/

/-- The parts added by a list of statements. -/
def parts {K : Type*} : List (Op τ K) → List (Part τ K)
  | [] => []
  | .add e :: os => e :: parts os
  | .conn _ _ :: os => parts os

/-- The connections made by a list of statements. -/
def conns {K : Type*} : List (Op τ K) → List (τ × τ)
  | [] => []
  | .add _ :: os => conns os
  | .conn a b :: os => (a, b) :: conns os

omit [DecidableEq τ] in
theorem parts_append {K : Type*} (a b : List (Op τ K)) : parts (a ++ b) = parts a ++ parts b := by
  induction a with
  | nil => rfl
  | cons o os ih =>
    cases o with
    | add e => exact congrArg (e :: ·) ih
    | conn x y => exact ih

omit [DecidableEq τ] in
theorem conns_append {K : Type*} (a b : List (Op τ K)) : conns (a ++ b) = conns a ++ conns b := by
  induction a with
  | nil => rfl
  | cons o os ih =>
    cases o with
    | add e => exact ih
    | conn x y => exact congrArg ((x, y) :: ·) ih

omit [DecidableEq τ] in
theorem parts_flatMap {K : Type*} {α : Type*} (l : List α) (f : α → List (Op τ K)) :
    parts (l.flatMap f) = l.flatMap fun x => parts (f x) := by
  induction l with
  | nil => rfl
  | cons x xs ih => rw [List.flatMap_cons, List.flatMap_cons, parts_append, ih]

omit [DecidableEq τ] in
theorem conns_flatMap {K : Type*} {α : Type*} (l : List α) (f : α → List (Op τ K)) :
    conns (l.flatMap f) = l.flatMap fun x => conns (f x) := by
  induction l with
  | nil => rfl
  | cons x xs ih => rw [List.flatMap_cons, List.flatMap_cons, conns_append, ih]

omit [DecidableEq τ] in
theorem parts_map_add {K : Type*} {α : Type*} (l : List α) (f : α → Part τ K) :
    parts (l.map fun x => Op.add (f x)) = l.map f := by
  induction l with
  | nil => rfl
  | cons x xs ih => exact congrArg (f x :: ·) ih

omit [DecidableEq τ] in
theorem conns_map_add {K : Type*} {α : Type*} (l : List α) (f : α → Part τ K) :
    conns (l.map fun x => Op.add (f x)) = [] := by
  induction l with
  | nil => rfl
  | cons x xs ih => exact ih

omit [DecidableEq τ] in
theorem parts_map_conn {K : Type*} {α : Type*} (l : List α) (f g : α → τ) :
    parts (l.map fun x => (Op.conn (f x) (g x) : Op τ K)) = [] := by
  induction l with
  | nil => rfl
  | cons x xs ih => exact ih

omit [DecidableEq τ] in
theorem conns_map_conn {K : Type*} {α : Type*} (l : List α) (f g : α → τ) :
    conns (l.map fun x => (Op.conn (f x) (g x) : Op τ K)) = l.map fun x => (f x, g x) := by
  induction l with
  | nil => rfl
  | cons x xs ih => exact congrArg ((f x, g x) :: ·) ih

theorem flatMap_none {α β : Type*} (l : List α) : (l.flatMap fun _ => ([] : List β)) = [] := by
  induction l with
  | nil => rfl
  | cons x xs ih => exact ih

/-- When all parts have different names nothing is replaced. -/
theorem run_eq {K : Type*} (nm : τ → String) (os : List (Op τ K)) (s : Sub τ K)
    (h : ((s.parts ++ parts os).map Part.inst).Nodup) :
    Sub.run nm os s = .ok ⟨s.parts ++ parts os, s.wires.connects nm (conns os)⟩ := by
  induction os generalizing s with
  | nil =>
    unfold Sub.run parts conns
    rw [List.append_nil]
    rfl
  | cons o os ih =>
    cases o with
    | add e =>
      have hf : s.parts.find? (fun p => p.inst = e.inst) = none := by
        rw [List.find?_eq_none]
        intro p hp
        have hd : s.parts ++ parts (Op.add e :: os) = s.parts ++ e :: parts os := rfl
        rw [hd, List.map_append, List.map_cons] at h
        have := (List.nodup_append.mp h).2.2 p.inst (List.mem_map_of_mem hp) e.inst
          List.mem_cons_self
        simpa using this
      have hadd : s.add nm e = .ok { s with parts := s.parts ++ [e] } := by
        unfold Sub.add
        rw [hf]
      unfold Sub.run
      rw [hadd]
      dsimp only
      rw [ih { s with parts := s.parts ++ [e] } (by
        dsimp only
        rw [List.append_assoc]
        exact h)]
      dsimp only
      rw [List.append_assoc]
      rfl
    | conn a b =>
      unfold Sub.run
      exact ih { s with wires := s.wires.connect nm a b } h

/-! ### Formatted names -/

theorem digits_inj {n m : ℕ} : Nat.toDigits 10 n = Nat.toDigits 10 m ↔ n = m := by
  constructor
  · intro h
    apply Nat.repr_injective
    apply String.toList_injective
    simpa using h
  · intro h; rw [h]

theorem no_underscore (n : ℕ) : '_' ∉ Nat.toDigits 10 n := by
  intro h
  have := Nat.isDigit_of_mem_toDigits (by norm_num) (by norm_num) h
  exact absurd this (by decide)

theorem split_sep {l m r s : List Char} {c : Char} (hl : c ∉ l) (hm : c ∉ m)
    (h : l ++ c :: r = m ++ c :: s) : l = m ∧ r = s := by
  induction l generalizing m with
  | nil =>
    cases m with
    | nil => simpa using h
    | cons x xs =>
      simp only [List.nil_append, List.cons_append, List.cons.injEq] at h
      exact absurd (h.1 ▸ List.mem_cons_self) hm
  | cons y ys ih =>
    cases m with
    | nil =>
      simp only [List.nil_append, List.cons_append, List.cons.injEq] at h
      exact absurd (h.1 ▸ List.mem_cons_self) hl
    | cons x xs =>
      simp only [List.cons_append, List.cons.injEq] at h
      obtain ⟨h1, h2⟩ := h
      obtain ⟨h3, h4⟩ := ih (fun k => hl (List.mem_cons_of_mem _ k))
        (fun k => hm (List.mem_cons_of_mem _ k)) h2
      exact ⟨by rw [h1, h3], h4⟩

theorem digits_sep {n m : ℕ} {r s : List Char} :
    Nat.toDigits 10 n ++ '_' :: r = Nat.toDigits 10 m ++ '_' :: s ↔ n = m ∧ r = s := by
  constructor
  · intro h
    obtain ⟨h1, h2⟩ := split_sep (no_underscore n) (no_underscore m) h
    exact ⟨digits_inj.mp h1, h2⟩
  · rintro ⟨rfl, rfl⟩; rfl

end Cbadc.Circuit
