import Verif.Model.Replace
import Verif.Lemmas.Circuit

/-! # Lemmas on replacing an element of a sub-circuit -/

namespace Cbadc.Circuit

variable {τ : Type} [DecidableEq τ] {K : Type*}

/-- Two terminals share a net. -/
def Shares (w : Wires τ) (a b : τ) : Prop := ∃ p, w.port a = some p ∧ w.port b = some p

/-- The numbers of the nets are those given out so far. -/
def Numbered (w : Wires τ) : Prop := ∀ t p, w.port t = some p → p < w.next

theorem connect_numbered (nm : τ → String) {w : Wires τ} (h : Numbered w) (a b : τ) : Numbered (w.connect nm a b) := by
  intro t p hp
  rw [connect_port] at hp
  rw [connect_next]
  rcases ha : w.port a with _ | q
  · rcases hb : w.port b with _ | q
    · rw [join_nn ha hb] at hp ⊢
      dsimp only at hp ⊢
      simp only [Function.update_apply] at hp
      split at hp
      · cases hp; omega
      · split at hp
        · cases hp; omega
        · have := h t p hp; omega
    · rw [join_ns ha hb] at hp ⊢
      dsimp only at hp ⊢
      simp only [Function.update_apply] at hp
      split at hp
      · cases hp; exact h _ _ hb
      · exact h t p hp
  · rw [join_ss ha] at hp ⊢
    dsimp only at hp ⊢
    simp only [Function.update_apply] at hp
    split at hp
    · cases hp; exact h _ _ ha
    · exact h t p hp

/-- Connecting a terminal `a` that is not connected yet to `b`. -/
theorem connect_fresh (nm : τ → String) {w : Wires τ} {a b : τ} (ha : w.port a = none) (hab : a ≠ b)
    (hn : nm a = nm b) :
    (∃ p, (w.connect nm a b).port a = some p ∧ (w.connect nm a b).port b = some p ∧
      (∀ q, (w.connect nm a b).name q = if q = p then nm b else w.name q) ∧ (p = w.next ∨ w.port b = some p)) ∧
    (∀ c, c ≠ a → c ≠ b → (w.connect nm a b).port c = w.port c) ∧
    (∀ c p, w.port c = some p → (w.connect nm a b).port c = some p) ∧ w.next ≤ (w.connect nm a b).next := by
  have hname : ∀ p, (w.join a b).port a = some p → ∀ q, (w.connect nm a b).name q = if q = p then nm b else w.name q := by
    intro p hp q
    unfold Wires.connect Wires.rename
    rw [hp]
    dsimp only
    rw [if_neg (by simp), join_name, hn, ite_self, Function.update_apply]
  rcases hb : w.port b with _ | q
  · have e := join_nn ha hb
    have ea : (w.join a b).port a = some w.next := by
      rw [e]; dsimp only; rw [Function.update_of_ne hab, Function.update_self]
    refine ⟨⟨w.next, ?_, ?_, hname _ ea, .inl rfl⟩, fun c h1 h2 => ?_, fun c p hc => ?_, ?_⟩
    · rw [connect_port]; exact ea
    · rw [connect_port, e]; dsimp only; rw [Function.update_self]
    · rw [connect_port, e]; dsimp only; rw [Function.update_of_ne h2, Function.update_of_ne h1]
    · have h1 : c ≠ a := by rintro rfl; rw [ha] at hc; cases hc
      have h2 : c ≠ b := by rintro rfl; rw [hb] at hc; cases hc
      rw [connect_port, e]; dsimp only; rw [Function.update_of_ne h2, Function.update_of_ne h1, hc]
    · rw [connect_next, e]; exact Nat.le_succ _
  · have e := join_ns ha hb
    have ea : (w.join a b).port a = some q := by rw [e]; dsimp only; rw [Function.update_self]
    refine ⟨⟨q, ?_, ?_, hname _ ea, .inr rfl⟩, fun c h1 h2 => ?_, fun c p hc => ?_, ?_⟩
    · rw [connect_port]; exact ea
    · rw [connect_port, e]; dsimp only; rw [Function.update_of_ne hab.symm, hb]
    · rw [connect_port, e]; dsimp only; rw [Function.update_of_ne h1]
    · have h1 : c ≠ a := by rintro rfl; rw [ha] at hc; cases hc
      rw [connect_port, e]; dsimp only; rw [Function.update_of_ne h1, hc]
    · rw [connect_next, e]

/-- Terminals other than the new one share nets as before. -/
theorem connect_shares (nm : τ → String) {w : Wires τ} (h : Numbered w) {a b : τ} (ha : w.port a = none) (hab : a ≠ b)
    (hn : nm a = nm b) {c d : τ} (hc : c ≠ a) (hd : d ≠ a) (hcd : c ≠ d) : Shares (w.connect nm a b) c d ↔ Shares w c d := by
  obtain ⟨⟨p, h1, h2, h3, h4⟩, h5, h6, -⟩ := connect_fresh nm ha hab hn
  have no : ∀ x, w.port b = none → w.port x ≠ some w.next := fun x _ hx => lt_irrefl _ (h x _ hx)
  constructor
  · rintro ⟨q, hq1, hq2⟩
    rcases hb : w.port b with _ | r
    · have hp : p = w.next := by rcases h4 with h | h; exact h; rw [hb] at h; cases h
      by_cases hcb : c = b
      · subst hcb
        rw [h2] at hq1
        obtain rfl := Option.some.inj hq1
        rw [h5 d hd (Ne.symm hcd), hp] at hq2
        exact absurd hq2 (no d hb)
      · by_cases hdb : d = b
        · subst hdb
          rw [h2] at hq2
          obtain rfl := Option.some.inj hq2
          rw [h5 c hc hcb, hp] at hq1
          exact absurd hq1 (no c hb)
        · exact ⟨q, by rw [← h5 c hc hcb]; exact hq1, by rw [← h5 d hd hdb]; exact hq2⟩
    · have old : ∀ x, x ≠ a → (w.connect nm a b).port x = w.port x := fun x hx => by
        by_cases hxb : x = b
        · subst hxb; rw [h6 x r hb, hb]
        · exact h5 x hx hxb
      exact ⟨q, by rw [← old c hc]; exact hq1, by rw [← old d hd]; exact hq2⟩
  · rintro ⟨q, hq1, hq2⟩
    exact ⟨q, h6 _ _ hq1, h6 _ _ hq2⟩

omit [DecidableEq τ] in
theorem byName_ok {nm : τ → String} {e : Part τ K} {s : String} {t : τ} (h : e.byName nm s = .ok t) : t ∈ e.terms ∧ nm t = s := by
  unfold Part.byName at h
  split at h
  · cases h
  · next t' hf =>
    cases h
    exact ⟨List.mem_of_find?_eq_some hf, by simpa using List.find?_some hf⟩

omit [DecidableEq τ] in
theorem byName_error {nm : τ → String} {e : Part τ K} {s : String} {x : Exc} (h : e.byName nm s = .error x) :
    x = .valueError ∧ ∀ t ∈ e.terms, nm t ≠ s := by
  unfold Part.byName at h
  split at h
  · next hf =>
    cases h
    exact ⟨rfl, fun t ht => by simpa using List.find?_eq_none.1 hf t ht⟩
  · cases h

/-- What the loop over the terminals of the old element does. -/
theorem reconnect_spec (nm : τ → String) (e : Part τ K) (he : (e.terms.map nm).Nodup) : ∀ (ts : List τ) (w w' : Wires τ),
    reconnect nm e ts w = .ok w' → Numbered w → (ts.map nm).Nodup → (∀ t ∈ ts, t ∉ e.terms) →
    (∀ t ∈ ts, ∀ t' ∈ e.terms, nm t' = nm t → w.port t' = none) →
    Numbered w' ∧ w.next ≤ w'.next ∧
    (∀ c d, c ∉ e.terms → d ∉ e.terms → c ≠ d → (Shares w' c d ↔ Shares w c d)) ∧
    (∀ c p, w.port c = some p → w'.port c = some p) ∧
    (∀ t ∈ ts, ∀ t' ∈ e.terms, nm t' = nm t → Shares w' t' t) ∧
    (∀ c, c ∉ ts → (c ∈ e.terms → ∀ t ∈ ts, nm c ≠ nm t) → w'.port c = w.port c) ∧
    (∀ p, (w'.name p = w.name p ∧ ∀ t ∈ ts, w'.port t ≠ some p) ∨ ∃ t ∈ ts, w'.port t = some p ∧ w'.name p = nm t)
  | [], w, w', h, hv, _, _, _ => by
    cases h
    exact ⟨hv, le_rfl, fun _ _ _ _ _ => Iff.rfl, fun _ _ h => h, by simp, fun _ _ _ => rfl, fun p => .inl ⟨rfl, by simp⟩⟩
  | t :: ts, w, w', h, hv, hnd, hdis, hfr => by
    rcases hb : e.byName nm (nm t) with x | t'
    · rw [reconnect, hb] at h; cases h
    rw [reconnect, hb] at h
    obtain ⟨ht', hnt⟩ := byName_ok hb
    rw [List.map_cons, List.nodup_cons] at hnd
    have hpt : w.port t' = none := hfr t (List.mem_cons_self ..) t' ht' hnt
    have hne : t' ≠ t := fun hh => hdis t (List.mem_cons_self ..) (hh ▸ ht')
    obtain ⟨⟨p, c1, c2, c3, c4⟩, c5, c6, c7⟩ := connect_fresh nm hpt hne hnt
    have hnts : ∀ s ∈ ts, nm t' ≠ nm s := fun s hs hh => hnd.1 (List.mem_map.2 ⟨s, hs, by rw [← hh, hnt]⟩)
    obtain ⟨i1, i2, i3, i4, i5, i6, i7⟩ := reconnect_spec nm e he ts _ w' h (connect_numbered nm hv t' t) hnd.2
      (fun s hs => hdis s (List.mem_cons_of_mem _ hs)) fun s hs s' hs' hh => by
        have h1 : s' ≠ t' := fun e => hnts s hs (e ▸ hh)
        have h2 : s' ≠ t := fun e => hdis t (List.mem_cons_self ..) (e ▸ hs')
        rw [c5 s' h1 h2]
        exact hfr s (List.mem_cons_of_mem _ hs) s' hs' hh
    refine ⟨i1, c7.trans i2, fun c d hc hd hcd => ?_, fun c q hq => i4 c q (c6 c q hq), fun s hs s' hs' hh => ?_, fun c hc hc' => ?_, fun q => ?_⟩
    · rw [i3 c d hc hd hcd]
      exact connect_shares nm hv hpt hne hnt (fun e => hc (e ▸ ht')) (fun e => hd (e ▸ ht')) hcd
    · rcases List.mem_cons.1 hs with rfl | hs
      · have : s' = t' := by
          have := List.inj_on_of_nodup_map he hs' ht' (by rw [hh, hnt])
          exact this
        subst this
        exact ⟨p, i4 _ _ c1, i4 _ _ c2⟩
      · exact i5 s hs s' hs' hh
    · have h1 : c ≠ t := fun e => hc (e ▸ List.mem_cons_self ..)
      have h2 : c ≠ t' := fun e => hc' (e ▸ ht') t (List.mem_cons_self ..) (by rw [e, hnt])
      rw [i6 c (fun hh => hc (List.mem_cons_of_mem _ hh)) (fun hh s hs => hc' hh s (List.mem_cons_of_mem _ hs)), c5 c h2 h1]
    · rcases i7 q with ⟨h1, h2⟩ | ⟨s, hs, h1, h2⟩
      · by_cases hq : q = p
        · refine .inr ⟨t, List.mem_cons_self .., hq ▸ i4 _ _ c2, ?_⟩
          rw [h1, c3, if_pos hq]
        · refine .inl ⟨by rw [h1, c3, if_neg hq], fun s hs => ?_⟩
          rcases List.mem_cons.1 hs with rfl | hs
          · rw [i4 _ _ c2]
            exact fun hh => hq (Option.some.inj hh).symm
          · exact h2 s hs
      · exact .inr ⟨s, List.mem_cons_of_mem _ hs, h1, h2⟩

/-- It fails exactly if a name is missing. -/
theorem reconnect_error (nm : τ → String) (e : Part τ K) : ∀ (ts : List τ) (w : Wires τ),
    (∀ x, reconnect nm e ts w = .error x → x = .valueError ∧ ∃ t ∈ ts, ∀ t' ∈ e.terms, nm t' ≠ nm t) ∧
    ((∃ t ∈ ts, ∀ t' ∈ e.terms, nm t' ≠ nm t) → reconnect nm e ts w = .error .valueError)
  | [], w => ⟨fun x h => (by cases h), fun ⟨t, ht, _⟩ => (by cases ht)⟩
  | t :: ts, w => by
    rw [reconnect]
    rcases hb : e.byName nm (nm t) with x | t'
    · obtain ⟨rfl, h⟩ := byName_error hb
      exact ⟨fun x hx => (Except.error.inj hx) ▸ ⟨rfl, t, List.mem_cons_self .., h⟩, fun _ => rfl⟩
    · obtain ⟨ht', hnt⟩ := byName_ok hb
      obtain ⟨i1, i2⟩ := reconnect_error nm e ts (w.connect nm t' t)
      refine ⟨fun x hx => ?_, fun ⟨s, hs, h⟩ => i2 ?_⟩
      · obtain ⟨h1, s, hs, h2⟩ := i1 x hx
        exact ⟨h1, s, List.mem_cons_of_mem _ hs, h2⟩
      · rcases List.mem_cons.1 hs with rfl | hs
        · exact absurd hnt (h t' ht')
        · exact ⟨s, hs, h⟩

theorem reconnect_numbered (nm : τ → String) (e : Part τ K) : ∀ (ts : List τ) (w w' : Wires τ),
    reconnect nm e ts w = .ok w' → Numbered w → Numbered w'
  | [], w, w', h, hv => by cases h; exact hv
  | t :: ts, w, w', h, hv => by
    rw [reconnect] at h
    split at h
    · cases h
    · exact reconnect_numbered nm e ts _ w' h (connect_numbered nm hv _ _)

theorem run_numbered (nm : τ → String) : ∀ (os : List (Op τ K)) (s s' : Sub τ K), Sub.run nm os s = .ok s' → Numbered s.wires →
    Numbered s'.wires
  | [], s, s', h, hv => by cases h; exact hv
  | .conn a b :: os, s, s', h, hv => run_numbered nm os _ s' h (connect_numbered nm hv a b)
  | .add e :: os, s, s', h, hv => by
    rw [Sub.run] at h
    split at h
    · cases h
    · next s1 h1 =>
      refine run_numbered nm os s1 s' h ?_
      unfold Sub.add at h1
      split at h1
      · cases h1; exact hv
      · next old _ =>
        split at h1
        · cases h1
        · next w hw =>
          cases h1
          exact reconnect_numbered nm e _ _ _ hw hv

end Cbadc.Circuit
