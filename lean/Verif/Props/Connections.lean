import Verif.Spec.Connections

/-! # C140: checking and completing connections -/

namespace Cbadc.Connections

open Spec

theorem mem_loose {cs ts : List Term} {t : Term} : t ∈ loose cs ts ↔ t ∈ ts ∧ t ∉ cs ∧ t.hidden = false := by
  simp [loose, List.mem_filter]

theorem within_sub {ts cs : List Term} {parts : List Elem} {s : Elem} :
    Within (.sub ts cs parts) s ↔ s = .sub ts cs parts ∨ ∃ e ∈ parts, Within e s := by
  constructor
  · intro h
    cases h with
    | refl => exact Or.inl rfl
    | inside h1 h2 => exact Or.inr ⟨_, h1, h2⟩
  · rintro (rfl | ⟨e, h1, h2⟩)
    · exact .refl _
    · exact .inside h1 h2

theorem within_device {ts : List Term} {s : Elem} : Within (.device ts) s ↔ s = .device ts := by
  constructor
  · intro h
    cases h
    rfl
  · rintro rfl
    exact .refl _

/-- What is open in a sub-circuit, level by level. -/
theorem open_sub {ts cs : List Term} {parts : List Elem} {t : Term} :
    InnerOpen (.sub ts cs parts) t ∨ OuterOpen (.sub ts cs parts) t ↔
      (∃ e ∈ parts, (t ∈ e.terminals ∧ t ∉ cs) ∨ InnerOpen e t ∨ OuterOpen e t) ∨ (t ∈ ts ∧ t ∉ cs) := by
  constructor
  · rintro (⟨ts', cs', ps', p, h1, h2, h3, h4⟩ | ⟨ts', cs', ps', h1, h2, h3⟩)
    · rcases within_sub.1 h1 with h | ⟨e, he, h⟩
      · cases h
        exact Or.inl ⟨p, h2, Or.inl ⟨h3, h4⟩⟩
      · exact Or.inl ⟨e, he, Or.inr (Or.inl ⟨_, _, _, p, h, h2, h3, h4⟩)⟩
    · rcases within_sub.1 h1 with h | ⟨e, he, h⟩
      · cases h
        exact Or.inr ⟨h2, h3⟩
      · exact Or.inl ⟨e, he, Or.inr (Or.inr ⟨_, _, _, h, h2, h3⟩)⟩
  · rintro (⟨e, he, ⟨h1, h2⟩ | ⟨ts', cs', ps', p, h1, h2, h3, h4⟩ | ⟨ts', cs', ps', h1, h2, h3⟩⟩ | ⟨h1, h2⟩)
    · exact Or.inl ⟨_, _, _, e, .refl _, he, h1, h2⟩
    · exact Or.inl ⟨_, _, _, p, .inside he h1, h2, h3, h4⟩
    · exact Or.inr ⟨_, _, _, .inside he h1, h2, h3⟩
    · exact Or.inr ⟨_, _, _, .refl _, h1, h2⟩

mutual
/-- **C140** `check_connections()` warns of exactly the terminals in the whole hierarchy that are neither connected nor hidden. -/
theorem C140_check (e : Elem) (t : Term) : t ∈ check e ↔ (InnerOpen e t ∨ OuterOpen e t) ∧ t.hidden = false := by
  match e with
  | .device ts =>
    rw [check]
    refine ⟨fun h => by simp at h, ?_⟩
    rintro ⟨⟨_, _, _, _, h, -⟩ | ⟨_, _, _, h, -⟩, -⟩ <;> simp [within_device] at h
  | .sub ts cs parts =>
    rw [check, List.mem_append, checkParts_mem cs parts t, mem_loose, open_sub, or_and_right, and_assoc]
/-- The same for a list of elements. -/
theorem checkParts_mem (cs : List Term) (parts : List Elem) (t : Term) : t ∈ checkParts cs parts ↔
    (∃ e ∈ parts, (t ∈ e.terminals ∧ t ∉ cs) ∨ InnerOpen e t ∨ OuterOpen e t) ∧ t.hidden = false := by
  match parts with
  | [] => simp [checkParts]
  | e :: parts =>
    rw [checkParts, List.mem_append, List.mem_append, C140_check e t, checkParts_mem cs parts t, mem_loose]
    simp only [List.mem_cons, exists_eq_or_imp]
    generalize (∃ e, e ∈ parts ∧ (t ∈ e.terminals ∧ ¬t ∈ cs ∨ InnerOpen e t ∨ OuterOpen e t)) = X
    tauto
end

theorem upstreamTerminals_ok {cs ts : List Term} : upstreamTerminals cs ts = .ok () ↔ ∀ t ∈ ts, t ∈ cs := by
  induction ts with
  | nil => simp [upstreamTerminals]
  | cons t ts ih =>
    by_cases c : t ∈ cs
    · simp [upstreamTerminals, c, ih]
    · simp [upstreamTerminals, c]

theorem upstreamTerminals_error {cs ts : List Term} {x : Exc} (h : upstreamTerminals cs ts = .error x) : x = .attributeError := by
  induction ts with
  | nil => cases h
  | cons t ts ih =>
    rw [upstreamTerminals] at h
    by_cases c : t ∈ cs
    · rw [if_pos c] at h
      exact ih h
    · rw [if_neg c] at h
      cases h
      rfl

theorem inner_sub {ts cs : List Term} {parts : List Elem} {t : Term} :
    InnerOpen (.sub ts cs parts) t ↔ ∃ e ∈ parts, (t ∈ e.terminals ∧ t ∉ cs) ∨ InnerOpen e t := by
  constructor
  · rintro ⟨ts', cs', ps', p, h1, h2, h3, h4⟩
    rcases within_sub.1 h1 with h | ⟨e, he, h⟩
    · cases h
      exact ⟨p, h2, Or.inl ⟨h3, h4⟩⟩
    · exact ⟨e, he, Or.inr ⟨_, _, _, p, h, h2, h3, h4⟩⟩
  · rintro ⟨e, he, ⟨h1, h2⟩ | ⟨ts', cs', ps', p, h1, h2, h3, h4⟩⟩
    · exact ⟨_, _, _, e, .refl _, he, h1, h2⟩
    · exact ⟨_, _, _, p, .inside he h1, h2, h3, h4⟩

mutual
theorem upstream_ok (e : Elem) : upstream e = .ok () ↔ ∀ t, ¬InnerOpen e t := by
  match e with
  | .device ts =>
    rw [upstream]
    refine ⟨fun _ t => ?_, fun _ => rfl⟩
    rintro ⟨_, _, _, _, h, -⟩
    cases within_device.1 h
  | .sub ts cs parts =>
    rw [upstream, upstreamParts_ok cs parts]
    refine forall_congr' fun t => not_congr ?_
    rw [inner_sub]
theorem upstreamParts_ok (cs : List Term) (parts : List Elem) : upstreamParts cs parts = .ok () ↔
    ∀ t, ¬∃ e ∈ parts, (t ∈ e.terminals ∧ t ∉ cs) ∨ InnerOpen e t := by
  match parts with
  | [] => simp [upstreamParts]
  | e :: parts =>
    have h1 := upstream_ok e
    have h2 := upstreamParts_ok cs parts
    have h3 := upstreamTerminals_ok (cs := cs) (ts := e.terminals)
    rw [upstreamParts]
    match hu : upstream e with
    | .error x =>
      rw [hu] at h1
      simp only [reduceCtorEq, false_iff, not_forall, not_not] at h1 ⊢
      obtain ⟨t, ht⟩ := h1
      exact ⟨t, e, List.mem_cons_self, Or.inr ht⟩
    | .ok () =>
      rw [hu] at h1
      have h1' := h1.1 rfl
      dsimp only
      match ht : upstreamTerminals cs e.terminals with
      | .error x =>
        rw [ht] at h3
        simp only [reduceCtorEq, false_iff, not_forall] at h3 ⊢
        obtain ⟨t, h4, h5⟩ := h3
        exact ⟨t, fun hn => hn ⟨e, List.mem_cons_self, Or.inl ⟨h4, h5⟩⟩⟩
      | .ok () =>
        have h3' := h3.1 ht
        dsimp only
        rw [h2]
        refine forall_congr' fun t => not_congr ?_
        simp only [List.mem_cons, exists_eq_or_imp]
        refine ⟨Or.inr, fun h => h.resolve_left ?_⟩
        rintro (⟨h4, h5⟩ | h4)
        · exact h5 (h3' t h4)
        · exact h1' t h4
end

mutual
theorem upstream_error (e : Elem) (x : Exc) (h : upstream e = .error x) : x = .attributeError := by
  match e with
  | .device ts => rw [upstream] at h; cases h
  | .sub ts cs parts =>
    rw [upstream] at h
    exact upstreamParts_error cs parts x h
theorem upstreamParts_error (cs : List Term) (parts : List Elem) (x : Exc) (h : upstreamParts cs parts = .error x) :
    x = .attributeError := by
  match parts with
  | [] => rw [upstreamParts] at h; cases h
  | e :: parts =>
    rw [upstreamParts] at h
    match hu : upstream e with
    | .error y =>
      rw [hu] at h
      cases h
      exact upstream_error e _ hu
    | .ok () =>
      rw [hu] at h
      dsimp only at h
      match ht : upstreamTerminals cs e.terminals with
      | .error y =>
        rw [ht] at h
        cases h
        exact upstreamTerminals_error ht
      | .ok () =>
        rw [ht] at h
        exact upstreamParts_error cs parts x h
end

/-- **C140** (partial: nothing is open) `connect_upstream()` leaves a hierarchy alone in which all terminals of the elements have
connections. -/
theorem C140_upstream_partial (e : Elem) (h : ∀ t, ¬InnerOpen e t) : upstream e = .ok () := (upstream_ok e).2 h

/-- **C140** is false whenever `connect_upstream()` has something to do: it raises an `AttributeError`. -/
theorem C140_upstream_false (e : Elem) (t : Term) (h : InnerOpen e t) : upstream e = .error .attributeError := by
  match hu : upstream e with
  | .ok () => exact absurd h ((upstream_ok e).1 hu t)
  | .error x => rw [upstream_error e x hu]

/-! ## Examples -/

/-- A sub-circuit with one device inside, whose second terminal is open; the device is connected to the outside. -/
def exSub (hidden : Bool) : Elem := .sub [⟨0, false⟩] [⟨0, false⟩, ⟨1, false⟩] [.device [⟨1, false⟩, ⟨2, hidden⟩]]

example : check (.sub [] [⟨0, false⟩] [exSub false]) = [⟨2, false⟩] := by decide +kernel

example : check (.sub [] [⟨0, false⟩] [exSub true]) = [] := by decide +kernel

example : upstream (.sub [] [⟨0, false⟩] [exSub true]) = .error .attributeError :=
  C140_upstream_false _ ⟨2, true⟩ ⟨[⟨0, false⟩], _, _, _, .inside List.mem_cons_self (.refl _), List.mem_cons_self,
    List.mem_cons_of_mem _ List.mem_cons_self, by decide⟩

example : upstream (.sub [] [⟨0, false⟩, ⟨1, false⟩] [.device [⟨1, false⟩]]) = .ok () := by
  refine C140_upstream_partial _ fun t h => ?_
  obtain ⟨e, he, h⟩ := inner_sub.1 h
  simp only [List.mem_singleton] at he
  subst he
  rcases h with ⟨h1, h2⟩ | ⟨_, _, _, _, h, -⟩
  · simp only [Elem.terminals, List.mem_singleton] at h1
    exact h2 (by rw [h1]; decide)
  · cases within_device.1 h

end Cbadc.Connections
