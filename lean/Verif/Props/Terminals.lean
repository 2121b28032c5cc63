import Verif.Props.Circuit
import Verif.Props.Signals

/-! # C54: several terminals at once; C56: uniform signals that are ticked -/

namespace Cbadc.Circuit
open Spec

variable {τ : Type}

/-- adding terminals at the end of an element whose names are in order -/
theorem addTerminals_spec (nm : τ → String) (ts : List τ) : ∀ (e : Element τ), Exact nm e →
    (((e.terms ++ ts).map nm).Nodup → ∃ e', e.addTerminals nm ts = .ok e' ∧ Exact nm e' ∧ e'.terms = e.terms ++ ts) ∧
    (¬((e.terms ++ ts).map nm).Nodup → e.addTerminals nm ts = .error .valueError) := by
  induction ts with
  | nil =>
    intro e he
    rw [List.append_nil]
    exact ⟨fun _ => ⟨e, rfl, he, rfl⟩, fun h => absurd he.1 h⟩
  | cons t ts ih =>
    intro e he
    by_cases hf : nm t ∈ e.terms.map nm
    · have herr : e.addTerminal nm t (-1) = .error .valueError := by
        unfold Element.addTerminal
        rw [if_pos rfl, if_pos ((exact_getElem he _).mpr hf)]
      have hn : ¬((e.terms ++ t :: ts).map nm).Nodup := by
        rw [List.map_append, List.map_cons, List.nodup_append]
        rintro ⟨-, -, h⟩
        exact h _ hf _ List.mem_cons_self rfl
      refine ⟨fun h => absurd h hn, fun _ => ?_⟩
      unfold Element.addTerminals
      rw [herr]
    · obtain ⟨e', h1, h2, h3⟩ := addAll_exact (nm := nm) [(t, -1)] e he ⟨hf, .inl rfl, trivial⟩
      have hadd : e.addTerminal nm t (-1) = .ok e' := by
        unfold Element.addAll at h1
        cases h : e.addTerminal nm t (-1) with
        | error x => rw [h] at h1; cases h1
        | ok y => rw [h] at h1; exact h1
      have h3' : e'.terms = e.terms ++ [t] := h3
      have e1 : Element.addTerminals nm (t :: ts) e = Element.addTerminals nm ts e' := by
        conv_lhs => unfold Element.addTerminals
        rw [hadd]
      have e2 : e.terms ++ t :: ts = e'.terms ++ ts := by rw [h3']; simp
      rw [e1, e2]
      exact ih e' h2

/-- **C54** `add_terminals` of a new element accepts a list of terminals exactly if no two have the same name; they are
then its terminals in this order and each name leads to its terminal.  Otherwise it raises `ValueError`. -/
theorem C54_terminals (nm : τ → String) (upper : String → String) (ts : List τ) :
    ((ts.map nm).Nodup → ∃ e, Element.addTerminals nm ts Element.empty = .ok e ∧ e.terms = ts ∧
      ∀ t ∈ ts, ∀ key, upper key = nm t → e.getName upper key = .ok t) ∧
    (¬(ts.map nm).Nodup → Element.addTerminals nm ts Element.empty = .error .valueError) := by
  obtain ⟨h1, h2⟩ := addTerminals_spec nm ts Element.empty (exact_empty nm)
  have hnil : (Element.empty : Element τ).terms ++ ts = ts := rfl
  rw [hnil] at h1 h2
  refine ⟨fun h => ?_, h2⟩
  obtain ⟨e, he, hx, ht⟩ := h1 h
  refine ⟨e, he, ht, fun t hmem key hk => ?_⟩
  obtain ⟨i, hi⟩ := List.mem_iff_getElem?.mp (ht ▸ hmem)
  have hl := (hx.2 (nm t) i).mpr (by rw [hi]; rfl)
  unfold Element.getName
  rw [hk, hl]
  dsimp only
  rw [hi]

example : (∃ e, Element.addTerminals id ["A", "B"] Element.empty = .ok e ∧ e.terms = ["A", "B"]) ∧
    Element.addTerminals id ["A", "B", "A"] Element.empty = .error .valueError := by
  refine ⟨?_, (C54_terminals id id _).2 (by decide)⟩
  obtain ⟨e, h1, h2, -⟩ := (C54_terminals id id ["A", "B"]).1 (by decide)
  exact ⟨e, h1, h2⟩

end Cbadc.Circuit

namespace Cbadc.Signal

variable {K : Type*} [Field K] [LinearOrder K] [IsStrictOrderedRing K]

/-- **C56** `n` calls of `tick` bring a uniform signal to its draw number `n`, whatever the period, and from there its values
at times up to one period after `n T` are this draw. -/
theorem C56_tick (draws : ℕ → ℕ → K) (T : K) (n : ℕ) :
    let r := Rand.uniformTick^[n] (Rand.new draws T)
    r.value = draws (n / 1024) (n % 1024) ∧ r.t = n * T ∧
      ∀ t, t ≤ (n + 1) * T → (r.uniformStep t).value = draws (n / 1024) (n % 1024) := by
  intro r
  have key : r.Holds draws n ∧ r.t = n * T ∧ r.T = T := by
    have : ∀ n : ℕ, (Rand.uniformTick^[n] (Rand.new draws T)).Holds draws n ∧
        (Rand.uniformTick^[n] (Rand.new draws T)).t = n * T ∧ (Rand.uniformTick^[n] (Rand.new draws T)).T = T := by
      intro n
      induction n with
      | zero => exact ⟨Rand.new_holds draws T, by simp [Rand.new], rfl⟩
      | succ n ih =>
        rw [Function.iterate_succ_apply']
        obtain ⟨h1, h2, h3⟩ := ih
        generalize Rand.uniformTick^[n] (Rand.new draws T) = q at *
        have hu : q.uniformTick = { q with t := q.t + q.T }.advance := by
          unfold Rand.uniformTick Rand.uniformStep
          rw [if_pos]
          have : (0 : K) < 1 / 10 := by positivity
          linarith
        rw [hu]
        obtain ⟨a1, a2, -⟩ := Rand.advance_t { q with t := q.t + q.T }
        refine ⟨Rand.Holds.advance (r := { q with t := q.t + q.T }) h1, ?_, ?_⟩
        · rw [a1]
          show q.t + q.T = _
          rw [h2, h3]
          push_cast
          ring
        · rw [a2]; exact h3
    exact this n
  obtain ⟨h1, h2, h3⟩ := key
  refine ⟨h1.value, h2, fun t ht => ?_⟩
  have : r.uniformStep t = r := by
    unfold Rand.uniformStep
    rw [if_neg]
    rw [h2, h3, not_lt]
    linarith
  rw [this]
  exact h1.value

example : (Rand.uniformTick^[3] (Rand.new (fun _ i => (i : ℚ)) (1 / 2))).value = 3 :=
  (C56_tick (fun _ i => (i : ℚ)) (1 / 2) 3).1

end Cbadc.Signal
