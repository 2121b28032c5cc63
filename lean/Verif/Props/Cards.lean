import Mathlib.Algebra.Field.Rat
import Mathlib.Data.List.Forall2
import Mathlib.Tactic.NormNum
import Verif.Lemmas.Cards

/-! # C157: printed components -/

namespace Cbadc.Cards

open Cbadc.NetlistText (Text lower upper definitionText)

section helpers

theorem letter_ok {K : Type} (c : Component K) :
    (c.letter ≠ ';' ∧ c.letter ≠ '\n' ∧ isBlank c.letter = false ∧ isMark c.letter = false) ∧ c.letter ≠ '*' ∧
      c.letter ≠ '.' := by
  cases c <;> simp only [Component.letter] <;> decide

theorem map_range_getD (nets : List Text) : (List.range nets.length).map (fun i => nets.getD i []) = nets := by
  refine List.ext_getElem (by simp) fun i h1 h2 => ?_
  simp [List.getD_eq_getElem?_getD, h2]

variable {K : Type} [Ring K] {half : K} {fmt : K → Text}

theorem xspice_read {name m : Text} (hname : Word (nameOf 'A' name)) (hm : Word m) {ports : List Text}
    {tss : List (List Text)} (hp : List.Forall₂ Chunk ports tss) {ps : List PortOf}
    (hr : readPorts none (tss.flatten ++ [m]) = some (ps, m)) :
    readText (words (nameOf 'A' name :: ports ++ [m])) = some [.device (nameOf 'A' name) ps m] := by
  have h := Chunk.words (List.Forall₂.cons (Chunk.word hname)
    (List.rel_append hp (List.Forall₂.cons (Chunk.word hm) .nil)))
  refine readLine_element (c := 'A') (cs := lower (if name.head? = some 'A' then name.tail else name))
    (n := nameOf 'A' name) (r := tss.flatten ++ [m]) ?_ rfl (by decide) (by decide) ?_
  · simpa using h
  · rw [show ('A' : Char).toUpper = 'A' from rfl]
    unfold readElement
    rw [hr]
    rfl

theorem forall₂_map {α : Type} {l : List α} {f : α → Text} {g : α → List Text} (h : ∀ a ∈ l, Chunk (f a) (g a)) :
    List.Forall₂ Chunk (l.map f) (l.map g) := by
  induction l with
  | nil => exact .nil
  | cons a l ih => exact .cons (h a (by simp)) (ih fun b hb => h b (by simp [hb]))

theorem take_eq (nets : List Text) (k : ℕ) (h : k ≤ nets.length) :
    nets.take k = (List.range k).map fun i => nets.getD i [] := by
  refine List.ext_getElem (by simp [h]) fun i h1 h2 => ?_
  have : i < nets.length := by simp at h1; omega
  simp [List.getD_eq_getElem?_getD, this]

theorem zip_eq (nets : List Text) (k : ℕ) (h : 2 * k ≤ nets.length) :
    (nets.take k).zipWith vd ((nets.drop k).take k) =
      (List.range k).map fun i => vd (nets.getD i []) (nets.getD (k + i) []) := by
  refine List.ext_getElem (by simp; omega) fun i h1 h2 => ?_
  have hi : i < k := by simpa using h2
  have h3 : i < nets.length := by omega
  have h4 : k + i < nets.length := by omega
  simp [List.getD_eq_getElem?_getD, h3, h4]

theorem getD_mem {nets : List Text} {i : ℕ} (h : i < nets.length) : nets.getD i [] ∈ nets := by
  rw [List.getD_eq_getElem?_getD]
  simp [h]

/-- every line is read as what was asked for -/
theorem line_read (c : Component K) (nets : List Text) (hc : ∀ t ∈ c.texts half fmt, Word t)
    (hp : ∀ n s k ps, c = .sub n s k ps → ps = []) (hn : nets.length = c.pins) (hw : ∀ t ∈ nets, NetName t) :
    ∃ l, c.line half fmt (nameOf c.letter c.given) nets = .ok l ∧
      readText l = some [c.asked half fmt fun i => nets.getD i []] := by
  have hname : Word (nameOf c.letter c.given) := by
    refine Word.name (letter_ok c).1 (hc _ ?_)
    cases c <;> simp [Component.texts, Component.given]
  have hW : ∀ i < nets.length, Word (nets.getD i []) := fun i hi => (hw _ (getD_mem hi)).1
  have hN : ∀ i < nets.length, NetName (nets.getD i []) := fun i hi => hw _ (getD_mem hi)
  have two : ∀ i, i < nets.length → Chunk (nets.getD i []) [nets.getD i []] := fun i hi => Chunk.word (hW i hi)
  have hu : ∀ ch : Char, ch = c.letter → ch.toUpper = ch := by
    rintro ch rfl
    cases c <;> simp only [Component.letter] <;> decide
  cases c with
  | resistor n r =>
    have hn : nets.length = 2 := hn
    refine ⟨_, rfl, readLine_element (Chunk.words (.cons (Chunk.word hname) (.cons (two 0 (by omega))
      (.cons (two 1 (by omega)) (.cons (Chunk.keyValue (k := ['r']) (by decide) (Chunk.word (hc r (by simp [Component.texts])))) .nil)))))
      rfl (letter_ok _).2.1 (letter_ok _).2.2 ?_⟩
    rw [hu _ rfl]
    rfl
  | capacitor n r =>
    have hn : nets.length = 2 := hn
    refine ⟨_, rfl, readLine_element (Chunk.words (.cons (Chunk.word hname) (.cons (two 0 (by omega))
      (.cons (two 1 (by omega)) (.cons (Chunk.word (hc r (by simp [Component.texts]))) .nil)))))
      rfl (letter_ok _).2.1 (letter_ok _).2.2 ?_⟩
    rw [hu _ rfl]
    rfl
  | inductor n r =>
    have hn : nets.length = 2 := hn
    refine ⟨_, rfl, readLine_element (Chunk.words (.cons (Chunk.word hname) (.cons (two 0 (by omega))
      (.cons (two 1 (by omega)) (.cons (Chunk.word (hc r (by simp [Component.texts]))) .nil)))))
      rfl (letter_ok _).2.1 (letter_ok _).2.2 ?_⟩
    rw [hu _ rfl]
    rfl
  | dcSource n r =>
    have hn : nets.length = 2 := hn
    refine ⟨_, rfl, readLine_element (Chunk.words (.cons (Chunk.word hname) (.cons (two 0 (by omega))
      (.cons (two 1 (by omega)) (.cons (Chunk.word (w := "DC".toList) (by decide))
        (.cons (Chunk.word (hc r (by simp [Component.texts]))) .nil))))))
      rfl (letter_ok _).2.1 (letter_ok _).2.2 ?_⟩
    rw [hu _ rfl]
    rfl
  | pulse n a b p r f =>
    have hn : nets.length = 2 := hn
    have h1 := Chunk.words (Chunk.all (ws := [a, b, "0.0".toList, fmt r, fmt f, fmt (p * half - f), fmt p]) (by
      intro w hw
      by_cases h0 : w = "0.0".toList
      · rw [h0]; decide
      · refine hc w ?_
        simp only [List.mem_cons, List.not_mem_nil, or_false, h0, false_or] at hw
        simp only [Component.texts, List.mem_cons, List.not_mem_nil, or_false]
        tauto))
    have h2 := Chunk.paren (k := "PULSE".toList) (by decide) h1
    refine ⟨_, rfl, readLine_element (Chunk.words (.cons (Chunk.word hname) (.cons (two 0 (by omega))
      (.cons (two 1 (by omega)) (.cons h2 (.cons (Chunk.word (w := "DC".toList) (by decide))
        (.cons (Chunk.word (w := "0.0".toList) (by decide)) .nil)))))))
      rfl (letter_ok _).2.1 (letter_ok _).2.2 ?_⟩
    rw [hu _ rfl]
    rfl
  | sine n o a f ph d θ ac =>
    have hn : nets.length = 2 := hn
    have h1 := Chunk.words (Chunk.all (ws := [o, a, f, d, θ, ph]) (by
      intro w hw
      refine hc w ?_
      simp only [List.mem_cons, List.not_mem_nil, or_false] at hw
      simp only [Component.texts, List.mem_cons, List.not_mem_nil, or_false]
      tauto))
    have h2 := Chunk.paren (k := "SIN".toList) (by decide) h1
    refine ⟨_, rfl, readLine_element (Chunk.words (.cons (Chunk.word hname) (.cons (two 0 (by omega))
      (.cons (two 1 (by omega)) (.cons h2 (.cons (Chunk.word (w := "DC".toList) (by decide))
        (.cons (Chunk.word (w := "0.0".toList) (by decide)) (.cons (Chunk.word (w := "AC".toList) (by decide))
          (.cons (Chunk.word (hc ac (by simp [Component.texts]))) .nil)))))))))
      rfl (letter_ok _).2.1 (letter_ok _).2.2 ?_⟩
    rw [hu _ rfl]
    rfl
  | ota n m v =>
    have hn : nets.length = 6 := hn
    refine ⟨_, rfl, readLine_element (Chunk.words (.cons (Chunk.word hname) (.cons (two 4 (by omega))
      (.cons (two 5 (by omega)) (.cons (two 2 (by omega)) (.cons (two 3 (by omega))
        (.cons (Chunk.word (hc v (by simp [Component.texts]))) .nil)))))))
      rfl (letter_ok _).2.1 (letter_ok _).2.2 ?_⟩
    rw [hu _ rfl]
    rfl
  | vcvs n m v =>
    have hn : nets.length = 6 := hn
    refine ⟨_, rfl, readLine_element (Chunk.words (.cons (Chunk.word hname) (.cons (two 4 (by omega))
      (.cons (two 5 (by omega)) (.cons (two 2 (by omega)) (.cons (two 3 (by omega))
        (.cons (Chunk.word (hc v (by simp [Component.texts]))) .nil)))))))
      rfl (letter_ok _).2.1 (letter_ok _).2.2 ?_⟩
    rw [hu _ rfl]
    rfl
  | buffer n m =>
    have hn : nets.length = 6 := hn
    refine ⟨_, rfl, readLine_element (Chunk.words (.cons (Chunk.word hname) (.cons (two 4 (by omega))
      (.cons (two 5 (by omega)) (.cons (two 2 (by omega)) (.cons (two 3 (by omega))
        (.cons (Chunk.word (w := "1.0".toList) (by decide)) .nil)))))))
      rfl (letter_ok _).2.1 (letter_ok _).2.2 ?_⟩
    rw [hu _ rfl]
    rfl
  | mosfet n m w l =>
    have hn : nets.length = 4 := hn
    refine ⟨_, rfl, readLine_element (Chunk.words (.cons (Chunk.word hname) (.cons (two 0 (by omega))
      (.cons (two 1 (by omega)) (.cons (two 2 (by omega)) (.cons (two 3 (by omega))
        (.cons (Chunk.word (hc m (by simp [Component.texts])).lower) (.cons (Chunk.words
          (.cons (Chunk.keyValue (k := ['W']) (by decide) (Chunk.word (hc w (by simp [Component.texts]))))
          (.cons (Chunk.keyValue (k := ['L']) (by decide) (Chunk.word (hc l (by simp [Component.texts])))) .nil))) .nil))))))))
      rfl (letter_ok _).2.1 (letter_ok _).2.2 ?_⟩
    rw [hu _ rfl]
    rfl
  | integrator n m =>
    have hm : Word (lower m) := (hc m (by simp [Component.texts])).lower
    have hn : nets.length = 2 := hn
    obtain ⟨a, b, rfl⟩ := List.length_eq_two.1 hn
    refine ⟨_, rfl, xspice_read hname hm (Chunk.all fun w h => (hw w h).1) ?_⟩
    rw [flatten_single, readPorts_nets hw]
    rfl
  | delay n m =>
    have hm : Word (lower m) := (hc m (by simp [Component.texts])).lower
    have hn : nets.length = 3 := hn
    obtain ⟨a, b, c, rfl⟩ := List.length_eq_three.1 hn
    refine ⟨_, rfl, xspice_read hname hm (Chunk.all fun w h => (hw w h).1) ?_⟩
    rw [flatten_single, readPorts_nets hw]
    rfl
  | flipFlop n m =>
    have hm : Word (lower m) := (hc m (by simp [Component.texts])).lower
    have hn : nets.length = 6 := hn
    refine ⟨_, rfl, xspice_read hname hm (Chunk.all fun w h => (hw w h).1) ?_⟩
    rw [flatten_single]
    have := readPorts_nets hw (lower m)
    rw [this]
    conv_lhs => rw [← map_range_getD nets, hn]
    rw [List.map_map]; rfl
  | observer n m k =>
    have hm : Word (lower m) := (hc m (by simp [Component.texts])).lower
    have hn : nets.length = k + 1 := hn
    refine ⟨_, rfl, xspice_read hname hm (Chunk.all fun w h => (hw w h).1) ?_⟩
    rw [flatten_single]
    have := readPorts_nets hw (lower m)
    rw [this]
    conv_lhs => rw [← map_range_getD nets, hn]
    rw [List.map_map]; rfl
  | reference n m k =>
    have hm : Word (lower m) := (hc m (by simp [Component.texts])).lower
    have hn : nets.length = k := hn
    refine ⟨_, rfl, xspice_read hname hm (.cons (Chunk.bracket (Chunk.all fun w h => (hw w h).1)) .nil) ?_⟩
    have := readPorts_vec (l := nets.map .net) (r := [lower m]) (by
      intro s hs
      obtain ⟨t, ht, rfl⟩ := List.mem_map.1 hs
      exact hw t ht) (by simp)
    rw [List.map_map] at this
    simp only [List.flatten_cons, List.flatten_nil, List.append_nil, List.append_assoc]
    refine Eq.trans this ?_
    rw [show (List.range k).map (fun i => Sig.net (nets.getD i [])) = nets.map .net by
      conv_rhs => rw [← map_range_getD nets, hn]
      rw [List.map_map]; rfl]
    rfl
  | adcRelative n m =>
    have hm : Word (lower m) := (hc m (by simp [Component.texts])).lower
    have hn : nets.length = 3 := hn
    refine ⟨_, rfl, xspice_read hname hm (.cons (Chunk.bracket (.cons (Chunk.vd (hW 0 (by omega)) (hW 2 (by omega))) .nil))
      (.cons (Chunk.bracket (.cons (two 1 (by omega)) .nil)) .nil)) ?_⟩
    have h1 := readPorts_vec (l := [.net (nets.getD 1 [])]) (r := [lower m])
      (by intro s hs; rw [List.mem_singleton.1 hs]; exact hN 1 (by omega)) (by simp)
    have := readPorts_vec (l := [.diff (nets.getD 0 []) (nets.getD 2 [])])
      (r := ['['] :: ([.net (nets.getD 1 [])].map sigWords).flatten ++ [']'] :: [lower m])
      (by intro s hs; rw [List.mem_singleton.1 hs]; trivial) (by simp)
    rw [h1] at this
    exact this
  | adcAbsolute n m =>
    have hm : Word (lower m) := (hc m (by simp [Component.texts])).lower
    have hn : nets.length = 3 := hn
    refine ⟨_, rfl, xspice_read hname hm (.cons (Chunk.bracket (.cons (two 0 (by omega)) .nil))
      (.cons (Chunk.bracket (.cons (two 1 (by omega)) .nil)) .nil)) ?_⟩
    have h1 := readPorts_vec (l := [.net (nets.getD 1 [])]) (r := [lower m])
      (by intro s hs; rw [List.mem_singleton.1 hs]; exact hN 1 (by omega)) (by simp)
    have := readPorts_vec (l := [.net (nets.getD 0 [])])
      (r := ['['] :: ([.net (nets.getD 1 [])].map sigWords).flatten ++ [']'] :: [lower m])
      (by intro s hs; rw [List.mem_singleton.1 hs]; exact hN 0 (by omega)) (by simp)
    rw [h1] at this
    exact this
  | dac n m =>
    have hm : Word (lower m) := (hc m (by simp [Component.texts])).lower
    have hn : nets.length = 2 := hn
    obtain ⟨a, b, rfl⟩ := List.length_eq_two.1 hn
    refine ⟨_, rfl, xspice_read hname hm (.cons (Chunk.bracket (.cons (two 0 (by omega)) .nil))
      (.cons (Chunk.bracket (.cons (two 1 (by omega)) .nil)) .nil)) ?_⟩
    have h1 := readPorts_vec (l := [.net b]) (r := [lower m])
      (by intro s hs; rw [List.mem_singleton.1 hs]; exact hN 1 (by simp)) (by simp)
    have := readPorts_vec (l := [.net a])
      (r := ['['] :: ([.net b].map sigWords).flatten ++ [']'] :: [lower m])
      (by intro s hs; rw [List.mem_singleton.1 hs]; exact hN 0 (by simp)) (by simp)
    rw [h1] at this
    exact this
  | summer n m k =>
    have hm : Word (lower m) := (hc m (by simp [Component.texts])).lower
    have hn : nets.length = k + 2 := hn
    have e : Component.ports (.summer n m k : Component K) nets =
        [bracket ((List.range k).map fun i => vd (nets.getD i []) (nets.getD (k + 1) [])), nets.getD k []] := by
      unfold Component.ports
      dsimp only
      rw [hn, show k + 2 - 2 = k by omega, show k + 2 - 1 = k + 1 by omega, take_eq nets k (by omega), List.map_map]
      rfl
    refine ⟨_, rfl, ?_⟩
    rw [e]
    refine xspice_read hname hm (.cons (Chunk.bracket (forall₂_map (g := fun i => sigWords (.diff (nets.getD i [])
      (nets.getD (k + 1) []))) fun i hi => Chunk.vd (hW i (by have := List.mem_range.1 hi; omega)) (hW _ (by omega))))
      (.cons (two k (by omega)) .nil)) ?_
    have := readPorts_vec (l := (List.range k).map fun i => .diff (nets.getD i []) (nets.getD (k + 1) []))
      (r := [nets.getD k [], lower m]) (by
        intro s hs
        obtain ⟨t, ht, rfl⟩ := List.mem_map.1 hs
        trivial) (by simp)
    rw [List.map_map, readPorts_net (hN k (by omega)) (by simp)] at this
    simp only [List.flatten_cons, List.flatten_nil, List.append_nil, List.append_assoc]
    exact this
  | diffSummer n m k =>
    have hm : Word (lower m) := (hc m (by simp [Component.texts])).lower
    have hn : nets.length = 2 * k + 1 := hn
    have e : Component.ports (.diffSummer n m k : Component K) nets =
        [bracket ((List.range k).map fun i => vd (nets.getD i []) (nets.getD (k + i) [])), nets.getD (2 * k) []] := by
      unfold Component.ports
      dsimp only
      rw [hn, show 2 * k + 1 - 1 = 2 * k by omega, zip_eq nets k (by omega)]
    refine ⟨_, rfl, ?_⟩
    rw [e]
    refine xspice_read hname hm (.cons (Chunk.bracket (forall₂_map (g := fun i => sigWords (.diff (nets.getD i [])
      (nets.getD (k + i) []))) fun i hi => Chunk.vd (hW i (by have := List.mem_range.1 hi; omega))
        (hW _ (by have := List.mem_range.1 hi; omega)))) (.cons (two (2 * k) (by omega)) .nil)) ?_
    have := readPorts_vec (l := (List.range k).map fun i => .diff (nets.getD i []) (nets.getD (k + i) []))
      (r := [nets.getD (2 * k) [], lower m]) (by
        intro s hs
        obtain ⟨t, ht, rfl⟩ := List.mem_map.1 hs
        trivial) (by simp)
    rw [List.map_map, readPorts_net (hN (2 * k) (by omega)) (by simp)] at this
    simp only [List.flatten_cons, List.flatten_nil, List.append_nil, List.append_assoc]
    exact this
  | sub n s k ps =>
    obtain rfl := hp n s k ps rfl
    have hm : Word (lower s) := (hc s (by simp [Component.texts])).lower
    have hn : nets.length = k := hn
    refine ⟨words (nameOf 'X' n :: nets ++ [lower s]), by simp [Component.line, loopKeys, Component.letter, Component.given], ?_⟩
    have h := Chunk.words (List.Forall₂.cons (Chunk.word hname)
      (List.rel_append (Chunk.all fun w h => (hw w h).1) (List.Forall₂.cons (Chunk.word hm) .nil)))
    refine readLine_element (c := 'X') (cs := lower (if n.head? = some 'X' then n.tail else n))
      (n := nameOf 'X' n) (r := nets ++ [lower s]) ?_ rfl (by decide) (by decide) ?_
    · simpa [flatten_single, Component.letter, Component.given] using h
    · rw [show ('X' : Char).toUpper = 'X' from rfl]
      unfold readElement
      rw [readInst_nets (fun t h => (hw t h).1) hm, Component.asked, ← hn, map_range_getD]
      rfl

omit [Ring K] in
theorem create_ok {isFloat : Text → Bool} {c : Component K} (h : c.given ≠ [])
    (hf : ∀ n m v, c = .ota n m v ∨ c = .vcvs n m v → isFloat v = true) (hs : ∀ n s k ps, c = .sub n s k ps → s ≠ []) :
    c.create isFloat = .ok (nameOf c.letter c.given) := by
  unfold Component.create
  rw [instanceName_eq h]
  cases c with
  | ota n m v => simp [hf n m v (Or.inl rfl)]
  | vcvs n m v => simp [hf n m v (Or.inr rfl)]
  | sub n s k ps => simp [hs n s k ps rfl]
  | _ => rfl

theorem loopKeys_ok (ps : List (Text × Text)) : (∃ t, loopKeys ps = .ok t) ↔ ∀ p ∈ ps, p.1.length = 2 := by
  induction ps with
  | nil => simp [loopKeys]
  | cons p ps ih =>
    obtain ⟨k, v⟩ := p
    rcases k with _ | ⟨a, _ | ⟨b, _ | ⟨c, k⟩⟩⟩
    · simp [loopKeys]
    · simp [loopKeys]
    · simp only [loopKeys, List.mem_cons, forall_eq_or_imp, List.length_cons, List.length_nil]
      cases h : loopKeys ps with
      | ok t => have := ih.1 ⟨t, h⟩; simpa using fun a b hab => this (a, b) hab
      | error e =>
        have : ¬ ∀ p ∈ ps, p.1.length = 2 := fun hh => by
          obtain ⟨t, ht⟩ := ih.2 hh
          rw [h] at ht; cases ht
        simp only [reduceCtorEq, exists_false, false_iff]
        exact fun hh => this hh.2
    · simp [loopKeys]

theorem line_ok (c : Component K) (name : Text) (nets : List Text) :
    (∃ t, c.line half fmt name nets = .ok t) ↔ ∀ n s k ps, c = .sub n s k ps → ∀ p ∈ ps, p.1.length = 2 := by
  cases c with
  | sub n s k ps =>
    rw [show (∀ n' s' k' ps', (Component.sub n s k ps : Component K) = .sub n' s' k' ps' → ∀ p ∈ ps', p.1.length = 2) ↔
      ∀ p ∈ ps, p.1.length = 2 from ⟨fun h => h n s k ps rfl, by rintro h _ _ _ _ ⟨⟩; exact h⟩, ← loopKeys_ok]
    unfold Component.line
    dsimp only
    cases loopKeys ps <;> simp
  | _ => simp [Component.line]

end helpers

variable {K : Type} [Ring K] {half : K} {fmt : K → Text}

/-- C157, which components can be printed: those with a name; a transconductance or a gain has to be a number for
Python, a sub-circuit needs a name for its definition as well, and the keys of its parameters need to have two
characters. -/
theorem C157_accepts (isFloat : Text → Bool) (c : Component K) (comments nets : List Text) :
    (∃ t, c.ngspice half fmt isFloat comments nets = .ok t) ↔
      c.given ≠ [] ∧ (∀ n m v, c = .ota n m v ∨ c = .vcvs n m v → isFloat v = true) ∧
        ∀ n s k ps, c = .sub n s k ps → s ≠ [] ∧ ∀ p ∈ ps, p.1.length = 2 := by
  constructor
  · rintro ⟨t, ht⟩
    have hg : c.given ≠ [] := by
      intro h0
      unfold Component.ngspice Component.create at ht
      rw [h0] at ht
      cases ht
    have hcr : ∃ n, c.create isFloat = .ok n := by
      unfold Component.ngspice at ht
      cases h : c.create isFloat with
      | ok n => exact ⟨n, rfl⟩
      | error e => rw [h] at ht; cases ht
    obtain ⟨name, hname⟩ := hcr
    have hli : ∃ l, c.line half fmt name nets = .ok l := by
      unfold Component.ngspice at ht
      rw [hname] at ht
      dsimp only at ht
      cases h : c.line half fmt name nets with
      | ok n => exact ⟨n, rfl⟩
      | error e => rw [h] at ht; cases ht
    have hk := (line_ok c name nets).1 hli
    unfold Component.create at hname
    rw [instanceName_eq hg] at hname
    dsimp only at hname
    refine ⟨hg, ?_, ?_⟩
    · rintro n m v (rfl | rfl)
      · by_contra hv
        simp [hv] at hname
      · by_contra hv
        simp [hv] at hname
    · rintro n s k ps rfl
      refine ⟨?_, hk n s k ps rfl⟩
      rintro rfl
      simp at hname
  · rintro ⟨h1, h2, h3⟩
    obtain ⟨l, hl⟩ := (line_ok (half := half) (fmt := fmt) c (nameOf c.letter c.given) nets).2
      fun n s k ps e => (h3 n s k ps e).2
    unfold Component.ngspice
    rw [create_ok h1 h2 fun n s k ps e => (h3 n s k ps e).1]
    dsimp only
    rw [hl]
    cases c <;> exact ⟨_, rfl⟩

theorem loopKeys_error {ps : List (Text × Text)} {e : Exc} (h : loopKeys ps = .error e) : e = .valueError := by
  induction ps with
  | nil => cases h
  | cons p ps ih =>
    obtain ⟨k, v⟩ := p
    rcases k with _ | ⟨a, _ | ⟨b, _ | ⟨c, k⟩⟩⟩
    · exact (Except.error.inj h).symm
    · exact (Except.error.inj h).symm
    · cases h' : loopKeys ps with
      | ok t => simp [loopKeys, h'] at h
      | error x =>
        simp only [loopKeys, h'] at h
        exact ih (h'.trans h)
    · exact (Except.error.inj h).symm

/-- C157, the errors: a component without a name is a `TypeError`, everything else that is refused a `ValueError`. -/
theorem C157_errors (isFloat : Text → Bool) (c : Component K) (comments nets : List Text) (e : Exc)
    (h : c.ngspice half fmt isFloat comments nets = .error e) :
    (e = .typeError ∧ c.given = [] ∧ ∀ n s k ps, c ≠ .sub n s k ps) ∨
      (e = .valueError ∧ ¬ (c.given = [] ∧ ∀ n s k ps, c ≠ .sub n s k ps)) := by
  by_cases hg : c.given = []
  · cases c with
    | sub n s k ps =>
      refine Or.inr ⟨?_, fun hh => hh.2 n s k ps rfl⟩
      unfold Component.ngspice Component.create at h
      rw [hg] at h
      exact (Except.error.inj h).symm
    | _ =>
      refine Or.inl ⟨?_, hg, fun n s k ps hh => by cases hh⟩
      unfold Component.ngspice Component.create at h
      rw [hg] at h
      exact (Except.error.inj h).symm
  · refine Or.inr ⟨?_, fun hh => hg hh.1⟩
    unfold Component.ngspice Component.create at h
    rw [instanceName_eq hg] at h
    cases c with
    | ota n m v =>
      by_cases hv : isFloat v = true
      · simp [hv, Component.line] at h
      · simp only [hv] at h
        exact (Except.error.inj h).symm
    | vcvs n m v =>
      by_cases hv : isFloat v = true
      · simp [hv, Component.line] at h
      · simp only [hv] at h
        exact (Except.error.inj h).symm
    | sub n s k ps =>
      by_cases hs : s = []
      · simp only [hs, if_true] at h
        exact (Except.error.inj h).symm
      · simp only [hs, if_false, Component.line] at h
        cases hl : loopKeys ps with
        | ok t => simp [hl] at h
        | error x =>
          simp only [hl] at h
          rw [← Except.error.inj h]
          exact loopKeys_error hl
    | _ => simp [Component.line] at h

/-- C157: a printed component is read as one element, the one that was asked for: of its type, with its name, between
the nets at its terminals and with its values.  What is missing for the full property: parameters of sub-circuits, see
`C157_parameters_false`, and comments of more than one line, see `C157_comment_false`. -/
theorem C157_card_partial (isFloat : Text → Bool) (c : Component K) (comments nets : List Text)
    (h : Printable half fmt isFloat c comments nets) :
    ∃ t, c.ngspice half fmt isFloat comments nets = .ok t ∧
      readText t = some [c.asked half fmt fun i => nets.getD i []] := by
  have hg : c.given ≠ [] := by
    refine (h.texts c.given ?_).1
    cases c <;> simp [Component.texts, Component.given]
  have hs : ∀ n s k ps, c = .sub n s k ps → s ≠ [] := by
    rintro n s k ps rfl
    exact (h.texts s (by simp [Component.texts])).1
  obtain ⟨l, h1, h2⟩ := line_read c nets h.texts h.plain h.pins h.nets
  unfold Component.ngspice
  rw [create_ok hg h.number hs]
  dsimp only
  rw [h1]
  cases c with
  | sub n s k ps => exact ⟨_, rfl, h2⟩
  | _ => exact ⟨_, rfl, readText_comments h.lines h2⟩

theorem ends_read {name : Text} (hname : Word name) : readText (".ENDS ".toList ++ name) = some [.ends name] := by
  have hc := Chunk.words (.cons (Chunk.word (w := ".ENDS".toList) (by decide)) (.cons (Chunk.word hname) .nil))
  have e : ".ENDS ".toList ++ name = words [".ENDS".toList, name] := rfl
  rw [e]
  refine readText_line hc.1 ?_
  unfold readLine
  rw [hc.eq]
  rfl

theorem words_cons (l : List Text) : ∀ a : Text, words (a :: l) = a ++ l.flatMap (fun t => ' ' :: t) := by
  induction l with
  | nil => intro a; simp [words]
  | cons b l ih =>
    intro a
    rw [words, ih]
    · simp
    · simp

theorem subckt_read {name : Text} {terminals : List Text} (hname : Word name) (hterm : ∀ t ∈ terminals, Word t) :
    readText (".SUBCKT ".toList ++ name ++ terminals.flatMap (fun t => ' ' :: t)) = some [.subckt name terminals] := by
  have hc := Chunk.words (.cons (Chunk.word (w := ".SUBCKT".toList) (by decide)) (Chunk.all (ws := name :: terminals) (by
    intro w hw
    rcases List.mem_cons.1 hw with rfl | hw
    · exact hname
    · exact hterm w hw)))
  have e : ".SUBCKT ".toList ++ name ++ terminals.flatMap (fun t => ' ' :: t) =
      words (".SUBCKT".toList :: name :: terminals) := by
    rw [words_cons, List.flatMap_cons, show ".SUBCKT ".toList = ".SUBCKT".toList ++ [' '] from rfl]
    simp only [List.append_assoc, List.cons_append, List.nil_append]
  rw [e]
  refine readText_line hc.1 ?_
  unfold readLine
  rw [hc.eq, List.flatten_cons, flatten_single]
  rfl

theorem body_read (isFloat : Text → Bool) (items : List (Item K))
    (h : ∀ e ∈ items, Printable half fmt isFloat e.comp e.comments e.nets) :
    ∃ texts : List Text, items.map (fun e => e.comp.ngspice half fmt isFloat e.comments e.nets) = texts.map .ok ∧
      ∀ b y, readText b = some y → readText (texts.flatMap (fun p => "    ".toList ++ p ++ ['\n']) ++ b) =
        some (items.map (Item.asked half fmt) ++ y) := by
  induction items with
  | nil => exact ⟨[], rfl, fun b y hb => hb⟩
  | cons e items ih =>
    obtain ⟨texts, h1, h2⟩ := ih fun d hd => h d (List.mem_cons_of_mem _ hd)
    obtain ⟨t, h3, h4⟩ := C157_card_partial isFloat e.comp e.comments e.nets (h e List.mem_cons_self)
    refine ⟨t :: texts, ?_, fun b y hb => ?_⟩
    · rw [List.map_cons, List.map_cons, h1, h3]
    · have := readText_break ((readText_indent t).trans h4) (h2 b y hb)
      rw [List.flatMap_cons, List.append_assoc, List.append_assoc, List.map_cons]
      exact this

/-- C157: the definition of a sub-circuit is read as its name, its terminals and the elements that were asked for, in
the order in which they were added.  What is missing is what is missing in `C157_card_partial`. -/
theorem C157_definition_partial (isFloat : Text → Bool) (name : Text) (terminals : List Text) (items : List (Item K))
    (hname : Word name) (hterm : ∀ t ∈ terminals, Word t)
    (h : ∀ e ∈ items, Printable half fmt isFloat e.comp e.comments e.nets) :
    ∃ texts, items.map (fun e => e.comp.ngspice half fmt isFloat e.comments e.nets) = texts.map .ok ∧
      readText (definitionText name terminals texts) =
        some (.subckt name terminals :: items.map (Item.asked half fmt) ++ [.ends name]) := by
  obtain ⟨texts, h1, h2⟩ := body_read isFloat items h
  refine ⟨texts, h1, ?_⟩
  have := readText_break (subckt_read hname hterm) (h2 _ _ (ends_read hname))
  have e : ∀ a b c : Text, a ++ '\n' :: (b ++ c) = a ++ ['\n'] ++ b ++ c := fun a b c => by
    rw [List.append_assoc, List.append_assoc]; rfl
  rw [e, ← List.append_assoc] at this
  exact this

/-- C157: the line of a model is read as its name, its type and its parameters with all their values. -/
theorem C157_model (name type : Text) (ps : List (Text × Val)) (hn : Word name) (ht : Word type)
    (hk : ∀ p ∈ ps, Word p.1) (hv : ∀ p ∈ ps, ∀ v ∈ p.2.values, Word v) :
    readText (modelText name type ps) = some [.model (lower name) type (ps.map fun p => (p.1, p.2.values))] := by
  have hbody : ∀ ps : List (Text × Val), (∀ p ∈ ps, Word p.1) → (∀ p ∈ ps, ∀ v ∈ p.2.values, Word v) →
      ∃ tss, List.Forall₂ Chunk (ps.map fun p => keyValue (p.1, p.2.text)) tss ∧
        readModel none (tss.flatten ++ [[')']]) = some (ps.map fun p => (p.1, p.2.values)) := by
    intro ps
    induction ps with
    | nil => intro _ _; exact ⟨[], .nil, rfl⟩
    | cons p ps ih =>
      intro hk hv
      obtain ⟨tss, h1, h2⟩ := ih (fun q hq => hk q (by simp [hq])) fun q hq => hv q (by simp [hq])
      obtain ⟨k, v⟩ := p
      have hk' : Word k := hk (k, v) (by simp)
      have hv' := hv (k, v) (by simp)
      have hkp : k ≠ [')'] := hk'.ne_mark (by decide)
      cases v with
      | one t =>
        have ht : Word t := hv' t (by simp [Val.values])
        refine ⟨[k, ['='], t] :: tss, .cons (Chunk.keyValue hk' (Chunk.word ht)) h1, ?_⟩
        have htb : t ≠ ['['] := ht.ne_mark (by decide)
        simp only [List.flatten_cons, List.cons_append, List.nil_append]
        rw [readModel.eq_def]
        simp only [hkp, if_false, htb, if_true, h2]
        rfl
      | list ts =>
        obtain ⟨us, hu1, hu2, hu3⟩ := Chunk.commaList (ws := ts) fun w hw => hv' w hw
        refine ⟨(k :: ['='] :: ['['] :: us ++ [[']']]) :: tss, .cons (Chunk.keyValue hk' (Chunk.square hu1)) h1, ?_⟩
        have := readModel_vec k hu2 (tss.flatten ++ [[')']]) []
        rw [hu3, h2] at this
        simp only [List.flatten_cons, List.append_assoc, List.cons_append, List.nil_append]
        rw [readModel.eq_def]
        simp only [hkp, if_false, if_true]
        exact this
  obtain ⟨tss, h1, h2⟩ := hbody ps hk hv
  have hc := Chunk.words (.cons (Chunk.word (w := ".model".toList) (by decide)) (.cons (Chunk.word hn.lower)
    (.cons (Chunk.paren ht (Chunk.words h1)) .nil)))
  refine readText_line hc.1 ?_
  unfold readLine
  rw [hc.eq]
  simp only [List.flatten_cons, List.flatten_nil, List.append_nil, List.cons_append, List.nil_append]
  refine Eq.trans (b := ((readModel none (tss.flatten ++ [[')']])).map (Stmt.model (lower name) type ·)).map ([·])) rfl ?_
  rw [h2]
  rfl

/-- C157, names: two components of one type are told apart if their names are in lower case and do not begin with the
letter of the type.  Other names need not be, see `C157_names_false`. -/
theorem C157_names_partial (letter : Char) (a b : Text) (ha : a.map Char.toLower = a) (hb : b.map Char.toLower = b)
    (hal : a.head? ≠ some letter) (hbl : b.head? ≠ some letter) (h : nameOf letter a = nameOf letter b) : a = b := by
  unfold nameOf at h
  rw [if_neg hal, if_neg hbl] at h
  have := (List.cons.inj h).2
  unfold NetlistText.lower at this
  rwa [ha, hb] at this

/-- C157: two resistors with different names can be printed as the same line. -/
theorem C157_names_false : ∃ a b : Text, a ≠ b ∧ ∀ nets : List Text, ∃ t,
    (Component.resistor a "50".toList : Component K).ngspice half fmt (fun _ => true) [] nets = .ok t ∧
      (Component.resistor b "50".toList : Component K).ngspice half fmt (fun _ => true) [] nets = .ok t :=
  ⟨"1".toList, "R1".toList, by decide, fun _ => ⟨_, rfl, rfl⟩⟩

/-- C157: a parameter of a sub-circuit makes printing fail, or its key is torn into a key and a value and its value
is lost. -/
theorem C157_parameters_false :
    (∃ c : Component K, (∀ t ∈ c.texts half fmt, Word t) ∧ c.pins = 0 ∧
      c.ngspice half fmt (fun _ => true) [] [] = .error .valueError) ∧
    ∃ (c : Component K) (t : Text) (s : Stmt), (∀ t ∈ c.texts half fmt, Word t) ∧ c.pins = 0 ∧
      c.ngspice half fmt (fun _ => true) [] [] = .ok t ∧ readText t = some [s] ∧
        s ≠ c.asked half fmt fun _ => [] := by
  refine ⟨⟨.sub "Xa".toList "amp".toList 0 [("gain".toList, "5".toList)], ?_, rfl, rfl⟩,
    .sub "Xa".toList "amp".toList 0 [("gm".toList, "5".toList)], "Xa amp g=m".toList,
    .inst "Xa".toList [] "amp".toList [("g".toList, "m".toList)], ?_, rfl, rfl, by decide, ?_⟩
  · simp only [Component.texts]; decide
  · simp only [Component.texts]; decide
  · simp only [Component.asked]; decide

/-- C157: a comment of two lines puts an element into the netlist. -/
theorem C157_comment_false : ∃ (c : Component K) (comment : Text) (t : Text),
    Printable half fmt (fun _ => true) c [] ["n1".toList, "n2".toList, "n3".toList] ∧
      c.ngspice half fmt (fun _ => true) [comment] ["n1".toList, "n2".toList, "n3".toList] = .ok t ∧
        readText t = some [.passive 'R' "Rload".toList "0".toList "OUT".toList "50".toList,
          c.asked half fmt fun i => ["n1".toList, "n2".toList, "n3".toList].getD i []] := by
  have hp : Printable half fmt (fun _ => true) (.delay "Ad".toList "delay".toList : Component K) []
      ["n1".toList, "n2".toList, "n3".toList] := by
    refine ⟨?_, by simp, rfl, by decide, ?_, ?_⟩
    · simp only [Component.texts]; decide
    · rintro n m v (h | h) <;> cases h
    · rintro n s k ps h; cases h
  refine ⟨.delay "Ad".toList "delay".toList, "load:\nRload 0 OUT 50".toList,
    "* load:\nRload 0 OUT 50\nAd n1 n2 n3 delay".toList, hp, rfl, ?_⟩
  have h1 : readText "* load:".toList = some [] := by decide
  have h2 : readText "Rload 0 OUT 50".toList =
      some [.passive 'R' "Rload".toList "0".toList "OUT".toList "50".toList] := by decide
  obtain ⟨t, h3, h4⟩ := C157_card_partial _ _ _ _ hp
  have ht : t = "Ad n1 n2 n3 delay".toList := (Except.ok.inj h3).symm
  rw [ht] at h4
  have e : "* load:\nRload 0 OUT 50\nAd n1 n2 n3 delay".toList =
      "* load:".toList ++ '\n' :: ("Rload 0 OUT 50".toList ++ '\n' :: "Ad n1 n2 n3 delay".toList) := by decide
  rw [e, readText_break h1 (readText_break h2 h4)]
  rfl

/-- C157, the other dialect: the period of a pulse source printed for Spectre is not the one that was asked for but the
width of the pulse, and nothing is printed for its rise time. -/
theorem C157_spectre_false : ∃ (fmt : ℚ → Text) (period rise fall : ℚ),
    (∀ x ∈ [period, rise, fall, period / 2 - fall], Word (fmt x)) ∧
    fieldOf "period".toList (wordsOf (spectrePulse (1 / 2) fmt "Vclk".toList "0".toList "1".toList period rise fall
      ["CLK".toList, "0".toList])) = some (fmt (period / 2 - fall)) ∧
    fmt (period / 2 - fall) ≠ fmt period ∧
    fieldOf "rise".toList (wordsOf (spectrePulse (1 / 2) fmt "Vclk".toList "0".toList "1".toList period rise fall
      ["CLK".toList, "0".toList])) ≠ some (fmt rise) := by
  have e : ∀ f : ℚ → Text, spectrePulse (1 / 2) f "Vclk".toList "0".toList "1".toList 10 1 1
      ["CLK".toList, "0".toList] = words ["VVclk".toList, "CLK".toList, "0".toList, "vsource".toList,
        "type=pulse".toList, "val0=0".toList, "val1=1".toList, keyValue ("period".toList, f (10 * (1 / 2) - 1)),
        "delay=".toList, "rise=".toList, "fall=".toList, "width=".toList, "phase=".toList, []] := fun _ => rfl
  have h4 : (10 * (1 / 2) - 1 : ℚ) = 4 := by norm_num
  have h4' : (10 / 2 - 1 : ℚ) = 4 := by norm_num
  have f10 : (if (10 : ℚ) = 10 then "10".toList else if (10 : ℚ) = 4 then "4".toList else "1".toList) = "10".toList :=
    if_pos rfl
  have f4 : (if (4 : ℚ) = 10 then "10".toList else if (4 : ℚ) = 4 then "4".toList else "1".toList) = "4".toList := by
    rw [if_neg (by norm_num), if_pos rfl]
  have f1 : (if (1 : ℚ) = 10 then "10".toList else if (1 : ℚ) = 4 then "4".toList else "1".toList) = "1".toList := by
    rw [if_neg (by norm_num), if_neg (by norm_num)]
  refine ⟨fun x => if x = 10 then "10".toList else if x = 4 then "4".toList else "1".toList, 10, 1, 1, ?_, ?_, ?_, ?_⟩
  · intro x hx
    rw [h4'] at hx
    simp only [List.mem_cons, List.not_mem_nil, or_false] at hx
    rcases hx with rfl | rfl | rfl | rfl
    · dsimp only; rw [f10]; decide
    · dsimp only; rw [f1]; decide
    · dsimp only; rw [f1]; decide
    · dsimp only; rw [f4]; decide
  · rw [e]; dsimp only; rw [h4, h4', f4]; decide
  · dsimp only; rw [h4', f4, f10]; decide
  · rw [e]; dsimp only; rw [h4, f4, f1]; decide

/-- `C157_card_partial`: the line of a resistor with a comment -/
example : Printable (1 / 2 : ℚ) (fun _ => []) (fun _ => true) (.resistor "load".toList "1k".toList) ["the load".toList]
    ["OUT".toList, "0".toList] ∧
    (Component.resistor "load".toList "1k".toList : Component ℚ).ngspice (1 / 2) (fun _ => []) (fun _ => true)
      ["the load".toList] ["OUT".toList, "0".toList] = .ok "* the load\nRload OUT 0 r=1k".toList ∧
    (Component.resistor "load".toList "1k".toList : Component ℚ).asked (1 / 2) (fun _ => [])
      (fun i => ["OUT".toList, "0".toList].getD i []) =
        .passive 'R' "Rload".toList "OUT".toList "0".toList "1k".toList := by
  refine ⟨⟨?_, by decide, rfl, by decide, ?_, ?_⟩, rfl, rfl⟩
  · simp only [Component.texts]; decide
  · rintro n m v (h | h) <;> cases h
  · rintro n s k ps h; cases h

/-- the line of a summer with two inputs -/
example : Printable (1 / 2 : ℚ) (fun _ => []) (fun _ => true) (.summer "s".toList "Sum".toList 2) []
    ["n1".toList, "n2".toList, "out".toList, "vcm".toList] ∧
    (Component.summer "s".toList "Sum".toList 2 : Component ℚ).ngspice (1 / 2) (fun _ => []) (fun _ => true) []
      ["n1".toList, "n2".toList, "out".toList, "vcm".toList] =
        .ok "As [%vd(n1,vcm) %vd(n2,vcm)] out sum".toList ∧
    (Component.summer "s".toList "Sum".toList 2 : Component ℚ).asked (1 / 2) (fun _ => [])
      (fun i => ["n1".toList, "n2".toList, "out".toList, "vcm".toList].getD i []) =
        .device "As".toList [.vec [.diff "n1".toList "vcm".toList, .diff "n2".toList "vcm".toList],
          .one (.net "out".toList)] "sum".toList := by
  refine ⟨⟨?_, by decide, rfl, by decide, ?_, ?_⟩, rfl, rfl⟩
  · simp only [Component.texts]; decide
  · rintro n m v (h | h) <;> cases h
  · rintro n s k ps h; cases h

/-- `C157_definition_partial`: a definition with two elements -/
example : readText (definitionText "rc".toList ["IN".toList, "OUT".toList]
    ["R1 IN OUT r=1k".toList, "* to ground\nC1 OUT 0 1n".toList]) =
    some [.subckt "rc".toList ["IN".toList, "OUT".toList],
      .passive 'R' "R1".toList "IN".toList "OUT".toList "1k".toList,
      .passive 'C' "C1".toList "OUT".toList "0".toList "1n".toList, .ends "rc".toList] := by decide

/-- `C157_model`: a model with a list of values -/
example : modelText "Sum".toList "summer".toList [("in_gain".toList, .list ["1.0".toList, "-2.0".toList]),
      ("out_gain".toList, .one "1.0".toList)] = ".model sum summer(in_gain=[1.0, -2.0] out_gain=1.0)".toList ∧
    (∀ v ∈ (Val.list ["1.0".toList, "-2.0".toList]).values, Word v) := by decide

/-- `C157_names_partial`: a name without its letter -/
example : ("load".toList).map Char.toLower = "load".toList ∧ ("load".toList).head? ≠ some 'R' ∧
    nameOf 'R' "load".toList = "Rload".toList := by decide

/-- `C157_accepts`, `C157_errors`: an amplifier whose transconductance is not a number for Python -/
example : (Component.ota "g".toList "ota".toList "1m".toList : Component ℚ).ngspice (1 / 2) (fun _ => [])
    (fun t => t = "0.001".toList) [] (List.replicate 6 "0".toList) = .error .valueError := rfl

end Cbadc.Cards
