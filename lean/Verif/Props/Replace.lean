import Verif.Lemmas.Replace
import Verif.Props.Circuit

/-! # Replacing an element of a sub-circuit (C155) -/

namespace Cbadc.Circuit

variable {τ : Type} [DecidableEq τ] {K : Type*}

/-- **C155** `sub.name = e` under a new name appends the element, if the name is its instance name, and raises ValueError otherwise;
under a name in use it is the same as `sub.add` of the element under that name; `sub.add(e)` is `sub.name = e` under its own name. -/
theorem C155_assign (nm : τ → String) (s : Sub τ K) (name : String) (e : Part τ K) :
    ((∀ p ∈ s.parts, p.inst ≠ name) → name = e.inst → s.assign nm name e = .ok ⟨s.parts ++ [e], s.wires⟩) ∧
    ((∀ p ∈ s.parts, p.inst ≠ name) → name ≠ e.inst → s.assign nm name e = .error .valueError) ∧
    ((∃ p ∈ s.parts, p.inst = name) → s.assign nm name e = s.add nm { e with inst := name }) ∧
    s.assign nm e.inst e = s.add nm e := by
  have hnone : (∀ p ∈ s.parts, p.inst ≠ name) → s.parts.find? (fun p => p.inst = name) = none := fun h =>
    List.find?_eq_none.2 fun p hp => by simpa using h p hp
  have hrec : ∀ (e e' : Part τ K), e.terms = e'.terms → ∀ ts w, reconnect nm e ts w = reconnect nm e' ts w := by
    intro e e' h ts
    induction ts with
    | nil => intro w; rfl
    | cons t ts ih =>
      intro w
      have hb : e.byName nm (nm t) = e'.byName nm (nm t) := by
        unfold Part.byName
        rw [h]
      rw [reconnect, reconnect, hb]
      split
      · rfl
      · exact ih _
  refine ⟨fun h hn => ?_, fun h hn => ?_, fun ⟨p, hp, hpn⟩ => ?_, ?_⟩
  · unfold Sub.assign
    rw [hnone h]
    exact if_neg (by simpa using hn)
  · unfold Sub.assign
    rw [hnone h]
    exact if_pos hn
  · unfold Sub.assign Sub.add
    dsimp only
    rcases hf : s.parts.find? (fun p => p.inst = name) with _ | old
    · exact absurd hpn (by simpa using List.find?_eq_none.1 hf p hp)
    · rw [hf]
      dsimp only
      rw [hrec e { e with inst := name } rfl]
      cases reconnect nm { e with inst := name } old.terms s.wires <;> rfl
  · unfold Sub.assign Sub.add
    rcases hf : s.parts.find? (fun p => p.inst = e.inst) with _ | old
    · rw [hf]
      exact if_neg fun h => h rfl
    · rw [hf]
      dsimp only
      cases reconnect nm e old.terms s.wires <;> rfl

omit [DecidableEq τ] in
/-- **C155** An attribute of a sub-circuit is the element of that instance name; without such an element AttributeError is
raised. -/
theorem C155_attr (s : Sub τ K) (name : String) :
    ((∃ p ∈ s.parts, p.inst = name) → ∃ e ∈ s.parts, s.attr name = .ok e ∧ e.inst = name) ∧
    ((∀ p ∈ s.parts, p.inst ≠ name) → s.attr name = .error .attributeError) := by
  unfold Sub.attr
  constructor
  · rintro ⟨p, hp, hpn⟩
    rcases hf : s.parts.find? (fun p => p.inst = name) with _ | e
    · exact absurd hpn (by simpa using List.find?_eq_none.1 hf p hp)
    · exact ⟨e, List.mem_of_find?_eq_some hf, by rw [hf], by simpa using List.find?_some hf⟩
  · intro h
    have hf : s.parts.find? (fun p => p.inst = name) = none := List.find?_eq_none.2 fun p hp => by simpa using h p hp
    rw [hf]

example : (⟨[⟨"R1", .res 1, [1, 2]⟩], .empty⟩ : Sub ℕ ℚ).attr "R2" = .error .attributeError :=
  (C155_attr _ _).2 (by decide)

/-- **C155** An element added under an instance name in use: ValueError is raised exactly if the old element has a terminal whose name
none of the new element has, and nothing else is raised. -/
theorem C155_error (nm : τ → String) (s : Sub τ K) (e old : Part τ K) (hf : s.attr e.inst = .ok old) :
    (s.add nm e = .error .valueError ↔ ∃ t ∈ old.terms, ∀ t' ∈ e.terms, nm t' ≠ nm t) ∧
    ∀ x, s.add nm e = .error x → x = .valueError := by
  have hf' : s.parts.find? (fun p => p.inst = e.inst) = some old := by
    unfold Sub.attr at hf
    split at hf
    · cases hf
    · next h => cases hf; exact h
  obtain ⟨h1, h2⟩ := reconnect_error nm e old.terms s.wires
  have hadd : ∀ x, s.add nm e = .error x ↔ reconnect nm e old.terms s.wires = .error x := by
    intro x
    unfold Sub.add
    rw [hf']
    dsimp only
    split
    · next y hy => rw [hy]; exact ⟨fun h => by cases h; rfl, fun h => by cases h; rfl⟩
    · next w hw => rw [hw]; exact ⟨fun h => (by cases h), fun h => (by cases h)⟩
  exact ⟨⟨fun h => (h1 _ ((hadd _).1 h)).2, fun h => (hadd _).2 (h2 h)⟩, fun x h => (h1 x ((hadd x).1 h)).1⟩

/-- **C155** Otherwise the new element takes the place of the old one and the wiring is kept: terminals that do not belong to the new
element share nets as before, each terminal of the new element is on the net of the old terminal of its name, and its other
terminals are not connected.  Names: a net without terminals of the old element keeps its name, the others are named after
one of the terminals of the old element. -/
theorem C155_replace (nm : τ → String) (os : List (Op τ K)) (s s' : Sub τ K) (hrun : Sub.run nm os .empty = .ok s) (e old : Part τ K)
    (hf : s.attr e.inst = .ok old) (he : (e.terms.map nm).Nodup) (ho : (old.terms.map nm).Nodup)
    (hfresh : ∀ t ∈ e.terms, s.wires.port t = none ∧ t ∉ old.terms) (h : s.add nm e = .ok s') :
    (s'.parts = s.parts.map fun p => if p.inst = e.inst then e else p) ∧ s'.attr e.inst = .ok e ∧
    (∀ a b, a ∉ e.terms → b ∉ e.terms → (s'.wires.sameNet a b ↔ s.wires.sameNet a b)) ∧
    (∀ t ∈ old.terms, ∃ t' ∈ e.terms, nm t' = nm t ∧ s'.wires.sameNet t' t) ∧
    (∀ t' ∈ e.terms, (∀ t ∈ old.terms, nm t ≠ nm t') → s'.wires.port t' = none) ∧
    ∀ p, ((∀ t ∈ old.terms, s'.wires.port t ≠ some p) → s'.wires.name p = s.wires.name p) ∧
      ((∃ t ∈ old.terms, s'.wires.port t = some p) → ∃ t ∈ old.terms, s'.wires.port t = some p ∧ s'.wires.name p = nm t) := by
  have hf' : s.parts.find? (fun p => p.inst = e.inst) = some old := by
    unfold Sub.attr at hf
    split at hf
    · cases hf
    · next h => cases hf; exact h
  have hnum : Numbered s.wires := run_numbered nm os _ _ hrun fun t p hp => by cases hp
  have herr : ¬ ∃ t ∈ old.terms, ∀ t' ∈ e.terms, nm t' ≠ nm t := fun hh => by
    rw [(C155_error nm s e old hf).1.2 hh] at h
    cases h
  unfold Sub.add at h
  rw [hf'] at h
  dsimp only at h
  split at h
  · cases h
  next w hw =>
  cases h
  obtain ⟨-, -, i3, i4, i5, i6, i7⟩ := reconnect_spec nm e he old.terms s.wires w hw hnum ho
    (fun t ht ht' => (hfresh t ht').2 ht) (fun t _ t' ht' _ => (hfresh t' ht').1)
  refine ⟨rfl, ?_, fun a b ha hb => ?_, fun t ht => ?_, fun t' ht' hno => ?_, fun p => ⟨fun hp => ?_, fun ⟨t, ht, hp⟩ => ?_⟩⟩
  · have hmem := List.mem_of_find?_eq_some hf'
    have hinst : old.inst = e.inst := by simpa using List.find?_some hf'
    unfold Sub.attr
    dsimp only
    have : (s.parts.map fun p => if p.inst = e.inst then e else p).find? (fun p => p.inst = e.inst) = some e := by
      have : ∀ l : List (Part τ K), old ∈ l →
          (l.map fun p => if p.inst = e.inst then e else p).find? (fun p => p.inst = e.inst) = some e := by
        intro l
        induction l with
        | nil => intro h; cases h
        | cons p l ih =>
          intro hm
          rw [List.map_cons]
          by_cases hp : p.inst = e.inst
          · rw [if_pos hp, List.find?_cons_of_pos (by simp)]
          · rw [if_neg hp, List.find?_cons_of_neg (by simpa using hp)]
            refine ih ?_
            rcases List.mem_cons.1 hm with rfl | hm
            · exact absurd hinst hp
            · exact hm
      exact this _ hmem
    rw [this]
  · by_cases hab : a = b
    · exact ⟨fun _ => .inl hab, fun _ => .inl hab⟩
    · have := i3 a b ha hb hab
      unfold Shares at this
      unfold Wires.sameNet
      rw [this]
  · have hex : ∃ t' ∈ e.terms, nm t' = nm t := by
      by_contra hh
      exact herr ⟨t, ht, fun t' ht' he => hh ⟨t', ht', he⟩⟩
    obtain ⟨t', ht', hn⟩ := hex
    exact ⟨t', ht', hn, .inr (i5 t ht t' ht' hn)⟩
  · show w.port t' = none
    rw [i6 t' (fun hh => (hfresh t' ht').2 hh) (fun _ t ht hh => hno t ht hh.symm), (hfresh t' ht').1]
  · rcases i7 p with ⟨h1, -⟩ | ⟨t, ht, h1, -⟩
    · exact h1
    · exact absurd h1 (hp t ht)
  · rcases i7 p with ⟨-, h1⟩ | ⟨t', ht', h1, h2⟩
    · exact absurd hp (h1 t ht)
    · exact ⟨t', ht', h1, h2⟩

/-- The netlist of the sub-circuit after a replacement is the one before with the device replaced, if the new element has terminals of the
same names in the same order and the nets of the old element are named after its terminals. -/
theorem C155_netlist_partial (nm : τ → String) (os : List (Op τ K)) (s s' : Sub τ K) (hrun : Sub.run nm os .empty = .ok s)
    (e old : Part τ K) (hf : s.attr e.inst = .ok old) (he : e.terms.map nm = old.terms.map nm) (ho : (old.terms.map nm).Nodup)
    (hfresh : ∀ t ∈ e.terms, s.wires.port t = none ∧ ∀ p ∈ s.parts, t ∉ p.terms)
    (hnamed : ∀ t ∈ old.terms, nm t ≠ "" ∧ ∃ p, s.wires.port t = some p ∧ s.wires.name p = nm t) (h : s.add nm e = .ok s') :
    s'.netlist nm = s.parts.map fun p => if p.inst = e.inst then ⟨e.inst, e.dev, nodeOrder e.dev (old.terms.map (s.wires.node nm))⟩
      else p.line nm s.wires := by
  have hmem : old ∈ s.parts := by
    unfold Sub.attr at hf
    split at hf
    · cases hf
    · next h => cases hf; exact List.mem_of_find?_eq_some h
  obtain ⟨r1, -, -, r4, -, r6⟩ := C155_replace nm os s s' hrun e old hf (he ▸ ho) ho
    (fun t ht => ⟨(hfresh t ht).1, (hfresh t ht).2 old hmem⟩) h
  -- ports of connected terminals are kept
  have hkeep : ∀ c, c ∉ e.terms → s'.wires.port c = s.wires.port c := by
    have hf' : s.parts.find? (fun p => p.inst = e.inst) = some old := by
      unfold Sub.attr at hf
      split at hf
      · cases hf
      · next h => cases hf; exact h
    have hnum : Numbered s.wires := run_numbered nm os _ _ hrun fun t p hp => by cases hp
    unfold Sub.add at h
    rw [hf'] at h
    dsimp only at h
    split at h
    · cases h
    next w hw =>
    cases h
    obtain ⟨-, -, -, i4, -, i6, -⟩ := reconnect_spec nm e (he ▸ ho) old.terms s.wires w hw hnum ho
      (fun t ht ht' => (hfresh t ht').2 old hmem ht) (fun t _ t' ht' _ => (hfresh t' ht').1)
    intro c hc
    show w.port c = _
    by_cases hco : c ∈ old.terms
    · obtain ⟨-, p, hp, -⟩ := hnamed c hco
      rw [hp, i4 c p hp]
    · exact i6 c hco fun hh => absurd hh hc
  have hold : ∀ t ∈ old.terms, t ∉ e.terms := fun t ht ht' => (hfresh t ht').2 old hmem ht
  -- and so are the names of the nets
  have hname : ∀ p, s'.wires.name p = s.wires.name p := by
    intro p
    by_cases hp : ∃ t ∈ old.terms, s'.wires.port t = some p
    · obtain ⟨t, ht, h1, h2⟩ := (r6 p).2 hp
      obtain ⟨-, q, hq, hn⟩ := hnamed t ht
      rw [hkeep t (hold t ht), hq] at h1
      cases h1
      rw [h2, hn]
    · exact (r6 p).1 fun t ht hh => hp ⟨t, ht, hh⟩
  have hnode : ∀ c, c ∉ e.terms → s'.wires.node nm c = s.wires.node nm c := by
    intro c hc
    unfold Wires.node
    rw [hkeep c hc]
    split
    · rw [hname]
    · rfl
  -- the new terminals are printed like the old ones
  have hnew : e.terms.map (s'.wires.node nm) = old.terms.map (s.wires.node nm) := by
    have hlen : e.terms.length = old.terms.length := by simpa using congrArg List.length he
    refine List.ext_getElem (by simpa using hlen) fun i h1 h2 => ?_
    rw [List.length_map] at h1 h2
    rw [List.getElem_map, List.getElem_map]
    have hni : nm e.terms[i] = nm old.terms[i] := by
      have := List.getElem_of_eq he (i := i) (by simpa using h1)
      simpa using this
    obtain ⟨t', ht', hn, hs⟩ := r4 old.terms[i] (List.getElem_mem h2)
    have htt : t' = e.terms[i] := List.inj_on_of_nodup_map (he ▸ ho) ht' (List.getElem_mem h1) (by rw [hn, hni])
    subst htt
    rw [← hnode _ (hold _ (List.getElem_mem h2))]
    rcases hs with hs | ⟨p, hp1, hp2⟩
    · rw [hs]
    · unfold Wires.node
      rw [hp1, hp2]
  unfold Sub.netlist
  rw [r1, List.map_map]
  refine List.map_congr_left fun p hp => ?_
  show Part.line nm s'.wires (if p.inst = e.inst then e else p) = _
  by_cases hpi : p.inst = e.inst
  · rw [if_pos hpi, if_pos hpi]
    unfold Part.line
    rw [hnew]
  · rw [if_neg hpi, if_neg hpi]
    unfold Part.line
    rw [List.map_congr_left fun t ht => hnode t fun hh => (hfresh t hh).2 p hp ht]

/-- `C155_replace`, `C155_assign`, `C155_error`:
an element whose nets are named after its terminals, and another one in its place -/
example : ∃ s s' : Sub ℕ ℚ, Sub.run (fun k => if k % 2 = 0 then "A" else "B")
      [.add ⟨"E1", .vcvs 1, [0, 1]⟩, .add ⟨"R1", .res 1, [12, 13]⟩, .conn 0 12, .conn 1 13] .empty = .ok s ∧
    s.attr "E1" = .ok ⟨"E1", .vcvs 1, [0, 1]⟩ ∧
    s.add (fun k => if k % 2 = 0 then "A" else "B") ⟨"E1", .vcvs 2, [2, 3]⟩ = .ok s' ∧
    s'.netlist (fun k => if k % 2 = 0 then "A" else "B") = [⟨"E1", .vcvs 2, ["A", "B"]⟩, ⟨"R1", .res 1, ["A", "B"]⟩] := by
  refine ⟨_, _, rfl, rfl, rfl, ?_⟩
  rfl

/-- **C155** is false for the nodes of the netlist in general: the nets of the replaced element are renamed after its terminals, whatever
they were called, and that may be the name of another net.  Here the terminal `IN` of the
element is on the net `X`; after the replacement that net is called `IN` like another one, and the resistor between the two nets
is printed with both its terminals on the same node. -/
theorem C155_names_false : ∃ (nm : ℕ → String) (s s' : Sub ℕ ℚ) (e old : Part ℕ ℚ) (os : List (Op ℕ ℚ)),
    Sub.run nm os .empty = .ok s ∧ s.attr e.inst = .ok old ∧ s.add nm e = .ok s' ∧ e.terms.map nm = old.terms.map nm ∧
    (⟨"R1", .res 1, ["IN", "X"]⟩ ∈ s.netlist nm) ∧ ⟨"R1", .res 1, ["IN", "IN"]⟩ ∈ s'.netlist nm ∧
    ¬ s'.wires.sameNet 10 11 ∧ ∀ x ∈ s.netlist nm, x.inst = "E1" → x.nodes = ["X"] := by
  refine ⟨fun k => if k = 20 then "X" else "IN", _, _, ⟨"E1", .other "amp", [2]⟩, _,
    [.add ⟨"E1", .other "amp", [1]⟩, .add ⟨"R1", .res 1, [10, 11]⟩, .conn 30 10, .conn 20 11, .conn 20 1], rfl, rfl, rfl, rfl, ?_, ?_, ?_, ?_⟩
  · exact List.mem_cons_of_mem _ (List.mem_cons_self ..)
  · exact List.mem_cons_of_mem _ (List.mem_cons_self ..)
  · rintro (h | ⟨p, h1, h2⟩)
    · cases h
    · have e1 := Option.some.inj (show some 0 = some p from h1)
      have e2 := Option.some.inj (show some 1 = some p from h2)
      omega
  · intro x hx hi
    rcases List.mem_cons.1 hx with rfl | hx
    · rfl
    · rcases List.mem_cons.1 hx with rfl | hx
      · exact absurd hi (by decide)
      · cases hx

/-- **C155** is false for resistors, capacitors and inductors: their terminals are named after the running number of terminals, so the names
of the old and the new element differ and the assignment always raises ValueError. -/
theorem C155_passive_false (s : Sub ℕ K) (inst : String) (d d' : Device K) (i j : ℕ) (hij : i + 1 < j)
    (hf : s.attr inst = .ok ⟨inst, d, [i, i + 1]⟩) : s.add unnamed ⟨inst, d', [j, j + 1]⟩ = .error .valueError := by
  refine (C155_error unnamed s ⟨inst, d', [j, j + 1]⟩ _ hf).1.2 ⟨i, by simp, fun t ht hh => ?_⟩
  have : t = i := Nat.repr_injective hh
  simp at ht
  omega

example : (⟨[⟨"R1", .res 1, [1, 2]⟩], .empty⟩ : Sub ℕ ℚ).attr "R1" = .ok ⟨"R1", .res 1, [1, 1 + 1]⟩ := rfl

end Cbadc.Circuit
