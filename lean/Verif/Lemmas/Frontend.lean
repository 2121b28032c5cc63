import Verif.Lemmas.Circuit
import Mathlib.Algebra.BigOperators.Intervals
import Mathlib.Analysis.Calculus.Deriv.Add
import Mathlib.Analysis.Calculus.Deriv.Mul
import Mathlib.Tactic.Linarith
import Mathlib.Tactic.Ring
import Mathlib.Tactic.LinearCombination
import Mathlib.Tactic.FieldSimp

/-! # Lemmas for the netlists of the frontends -/

namespace Cbadc.Circuit

open Spec

/-- Simplify an equation between formatted names to one between the numbers. -/
macro "names" " at " h:ident : tactic =>
  `(tactic| (replace $h := congrArg String.toList $h;
             simp [fmt, fmt2, String.toList_append, digits_inj, digits_sep] at $h:ident))

/-- A list of connections, each of which attaches a pin or a numbered terminal of a part to one of
the sub-circuit's own terminals, and where that terminal is a function of the attached one. -/
theorem hub_star {Q : Type} {inst : Q → String} (hinj : Function.Injective inst)
    (hp : Q → String → String) (hn : Q → ℕ → String) (cs : List (Obj × Obj))
    (h : ∀ c ∈ cs, (∃ q s, c = (.own (hp q s), .pin (inst q) s)) ∨
      ∃ q k, c = (.own (hn q k), .num (inst q) k)) : Star cs := by
  refine ⟨?_, ?_⟩
  · intro c hc d hd
    rcases h c hc with ⟨q, s, rfl⟩ | ⟨q, s, rfl⟩ <;> rcases h d hd with ⟨r, u, rfl⟩ | ⟨r, u, rfl⟩ <;>
      simp
  · intro c hc d hd e
    rcases h c hc with ⟨q, s, rfl⟩ | ⟨q, s, rfl⟩ <;> rcases h d hd with ⟨r, u, rfl⟩ | ⟨r, u, rfl⟩ <;>
      simp at e
    · rw [hinj e.1, e.2]
    · rw [hinj e.1, e.2]

theorem hub_node {Q : Type} {inst : Q → String} (hinj : Function.Injective inst)
    (hp : Q → String → String) (hn : Q → ℕ → String) (ids : String → ℕ → String)
    (cs : List (Obj × Obj))
    (h : ∀ c ∈ cs, (∃ q s, c = (.own (hp q s), .pin (inst q) s)) ∨
      ∃ q k, c = (.own (hn q k), .num (inst q) k))
    (hne : ∀ c ∈ cs, c.1.name ids ≠ "") (c : Obj × Obj) (hc : c ∈ cs) :
    (Wires.connects (Obj.name ids) cs .empty).node (Obj.name ids) c.1 = c.1.name ids ∧
    (Wires.connects (Obj.name ids) cs .empty).node (Obj.name ids) c.2 = c.1.name ids :=
  star_node _ cs (hub_star hinj hp hn cs h) hne c hc

theorem nodup_flatMap_key {α : Type*} (N : ℕ) (f : ℕ → List α) (key : α → ℕ)
    (h1 : ∀ n, (f n).Nodup) (h2 : ∀ n, ∀ x ∈ f n, key x = n) : ((List.range N).flatMap f).Nodup := by
  rw [List.nodup_flatMap]
  refine ⟨fun n _ => h1 n, ?_⟩
  refine List.Pairwise.imp ?_ (List.nodup_range (n := N))
  intro a b hab
  rw [Function.onFun, List.disjoint_left]
  intro x hx hx'
  exact hab ((h2 a x hx).symm.trans (h2 b x hx'))

/-! ### Sums over netlists -/

theorem leaving_append (sol : Sol) (a b : List (Line ℝ)) (x : String) (t : ℝ) :
    leaving sol (a ++ b) x t = leaving sol a x t + leaving sol b x t := by
  unfold leaving
  rw [List.map_append, List.sum_append]

theorem leaving_cons (sol : Sol) (l : Line ℝ) (b : List (Line ℝ)) (x : String) (t : ℝ) :
    leaving sol (l :: b) x t = inflow sol x t l + leaving sol b x t := by
  unfold leaving
  rw [List.map_cons, List.sum_cons]

theorem leaving_nil (sol : Sol) (x : String) (t : ℝ) : leaving sol [] x t = 0 := rfl

theorem leaving_flatMap (sol : Sol) (N : ℕ) (f : ℕ → List (Line ℝ)) (x : String) (t : ℝ) :
    leaving sol ((List.range N).flatMap f) x t = ∑ n ∈ Finset.range N, leaving sol (f n) x t := by
  induction N with
  | zero => simp [leaving]
  | succ N ih =>
    rw [List.range_succ, List.flatMap_append, leaving_append, ih, Finset.sum_range_succ]
    congr 1
    simp

theorem leaving_map (sol : Sol) (N : ℕ) (f : ℕ → Line ℝ) (x : String) (t : ℝ) :
    leaving sol ((List.range N).map f) x t = ∑ n ∈ Finset.range N, inflow sol x t (f n) := by
  induction N with
  | zero => simp [leaving]
  | succ N ih =>
    rw [List.range_succ, List.map_append, leaving_append, ih, Finset.sum_range_succ]
    congr 1
    simp [leaving]

theorem inflow_zero (sol : Sol) (x : String) (t : ℝ) (l : Line ℝ)
    (h : ∀ k b, l.nodes[k]? = some b → b = x → sol.i l.inst k t = 0) : inflow sol x t l = 0 := by
  unfold inflow
  apply List.sum_eq_zero
  intro y hy
  rw [List.mem_mapIdx] at hy
  obtain ⟨k, hk, rfl⟩ := hy
  split_ifs with e
  · exact h k _ (by rw [List.getElem?_eq_getElem hk]) e
  · rfl

theorem inflow_notMem (sol : Sol) (x : String) (t : ℝ) (l : Line ℝ) (h : x ∉ l.nodes) :
    inflow sol x t l = 0 := by
  apply inflow_zero
  intro k b hb e
  exact absurd (e ▸ List.mem_of_getElem? hb) h

theorem inflow_two (sol : Sol) (x : String) (t : ℝ) (i : String) (d : Device ℝ) (a b : String) :
    inflow sol x t ⟨i, d, [a, b]⟩ =
      (if a = x then sol.i i 0 t else 0) + (if b = x then sol.i i 1 t else 0) := by
  simp [inflow]

theorem inflow_four (sol : Sol) (x : String) (t : ℝ) (i : String) (dv : Device ℝ)
    (a b c d : String) :
    inflow sol x t ⟨i, dv, [a, b, c, d]⟩ =
      (if a = x then sol.i i 0 t else 0) + ((if b = x then sol.i i 1 t else 0) +
        ((if c = x then sol.i i 2 t else 0) + (if d = x then sol.i i 3 t else 0))) := by
  simp [inflow]

/-! ### Currents for given potentials -/

/-- The current a resistor, a capacitor or a transconductor draws at its terminal `k` for given
potentials; sub-circuits draw none. -/
noncomputable def current (v : String → ℝ → ℝ) (l : Line ℝ) (k : ℕ) (t : ℝ) : ℝ :=
  match l.dev, l.nodes with
  | .res r, [a, b] => if k = 0 then (v a t - v b t) / r else - ((v a t - v b t) / r)
  | .cap c, [a, b] =>
    if k = 0 then c * deriv (fun x => v a x - v b x) t else - (c * deriv (fun x => v a x - v b x) t)
  | .vccs g, [_, _, p, q] =>
    if k = 0 then g * (v p t - v q t) else if k = 1 then - (g * (v p t - v q t)) else 0
  | _, _ => 0

/-- The currents of all devices of a netlist. -/
noncomputable def currents (net : List (Line ℝ)) (v : String → ℝ → ℝ) (e : String) (k : ℕ)
    (t : ℝ) : ℝ :=
  match net.find? (fun l => l.inst = e) with
  | none => 0
  | some l => current v l k t

theorem currents_eq {net : List (Line ℝ)} (hnd : (net.map Line.inst).Nodup) (v : String → ℝ → ℝ)
    {l : Line ℝ} (hl : l ∈ net) : currents net v l.inst = current v l := by
  have : net.find? (fun m => m.inst = l.inst) = some l := by
    induction net with
    | nil => cases hl
    | cons m ms ih =>
      rw [List.map_cons, List.nodup_cons] at hnd
      rw [List.find?_cons]
      rcases List.mem_cons.mp hl with rfl | hl'
      · simp
      · have : m.inst ≠ l.inst := fun e => hnd.1 (e ▸ List.mem_map_of_mem hl')
        simp only [this, decide_false]
        exact ih hnd.2 hl'
  funext k t
  unfold currents
  rw [this]

theorem netlist_insts {τ : Type} [DecidableEq τ] {K : Type*} (nm : τ → String) (s : Sub τ K) :
    (s.netlist nm).map Line.inst = s.parts.map Part.inst := by
  unfold Sub.netlist
  rw [List.map_map]
  rfl

end Cbadc.Circuit
