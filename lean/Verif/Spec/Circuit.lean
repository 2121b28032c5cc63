import Verif.Model.Circuit
import Mathlib.Analysis.Calculus.Deriv.Basic
import Mathlib.Algebra.BigOperators.Group.List.Basic
import Mathlib.Algebra.BigOperators.Group.Finset.Basic
import Mathlib.Logic.Relation

/-!
# Specification of circuits

Nets as the equivalence relation generated by the connections, and the laws of lumped circuits: the
current-voltage relations of the ideal devices and Kirchhoff's current law.  Nothing here refers to
how the netlist was produced.
-/

namespace Cbadc.Circuit.Spec

/-- Two terminals are linked when a chain of connections leads from one to the other. -/
def Linked {τ : Type} (cs : List (τ × τ)) : τ → τ → Prop :=
  Relation.EqvGen fun a b => (a, b) ∈ cs

/-- The terminal occurs in one of the connections. -/
def Touched {τ : Type} (cs : List (τ × τ)) (t : τ) : Prop := ∃ c ∈ cs, t = c.1 ∨ t = c.2

/-- No connection joins two terminals that have been used before and are not linked yet. -/
def Tame {τ : Type} (cs : List (τ × τ)) : Prop :=
  ∀ pre c post, cs = pre ++ c :: post → Touched pre c.1 → Touched pre c.2 → Linked pre c.1 c.2

/-- Every connection attaches a fresh terminal (its second) to a hub (its first): no second terminal
is also a first one, and a second terminal has only one hub. -/
def Star {τ : Type} (cs : List (τ × τ)) : Prop :=
  (∀ c ∈ cs, ∀ d ∈ cs, c.2 ≠ d.1) ∧ ∀ c ∈ cs, ∀ d ∈ cs, c.2 = d.2 → c.1 = d.1

/-- Terminal number `k` of the instance `e` is on the node `x`. -/
def At {K : Type*} (net : List (Line K)) (e : String) (k : ℕ) (x : String) : Prop :=
  ∃ l ∈ net, l.inst = e ∧ l.nodes[k]? = some x

/-- Potentials of the nodes and currents into the terminals of the devices, as functions of time. -/
structure Sol where
  v : String → ℝ → ℝ
  i : String → ℕ → ℝ → ℝ

/-- A law for the sub-circuits: what the potentials and currents at its terminals must satisfy. -/
abbrev Law := String → (ℕ → ℝ → ℝ) → (ℕ → ℝ → ℝ) → Prop

/-- The device of a netlist line obeys its law.  Currents are counted into the device; a controlled
source carries its current from its first node through the device to its second node. -/
def Obeys (law : Law) (sol : Sol) (l : Line ℝ) : Prop :=
  match l.dev, l.nodes with
  | .res r, [a, b] =>
    ∀ t, sol.i l.inst 0 t = (sol.v a t - sol.v b t) / r ∧ sol.i l.inst 1 t = - sol.i l.inst 0 t
  | .cap c, [a, b] =>
    ∀ t, ∃ d, HasDerivAt (fun x => sol.v a x - sol.v b x) d t ∧ sol.i l.inst 0 t = c * d ∧
      sol.i l.inst 1 t = - sol.i l.inst 0 t
  | .ind h, [a, b] =>
    ∀ t, ∃ d, HasDerivAt (sol.i l.inst 0) d t ∧ sol.v a t - sol.v b t = h * d ∧
      sol.i l.inst 1 t = - sol.i l.inst 0 t
  | .vccs g, [_, _, p, q] =>
    ∀ t, sol.i l.inst 0 t = g * (sol.v p t - sol.v q t) ∧ sol.i l.inst 1 t = - sol.i l.inst 0 t ∧
      sol.i l.inst 2 t = 0 ∧ sol.i l.inst 3 t = 0
  | .vcvs g, [a, b, p, q] =>
    ∀ t, sol.v a t - sol.v b t = g * (sol.v p t - sol.v q t) ∧
      sol.i l.inst 1 t = - sol.i l.inst 0 t ∧ sol.i l.inst 2 t = 0 ∧ sol.i l.inst 3 t = 0
  | .sub name, nodes => law name (fun k => sol.v (nodes.getD k "")) (sol.i l.inst)
  | .sum g o, nodes =>
    nodes.length = 2 * g.length + 1 ∧ ∀ t,
      sol.v (nodes.getD (2 * g.length) "") t = ∑ k ∈ Finset.range g.length,
        g.getD k 0 * (sol.v (nodes.getD (2 * k) "") t - sol.v (nodes.getD (2 * k + 1) "") t) + o ∧
      ∀ k < 2 * g.length, sol.i l.inst k t = 0
  | .delay d, [a, b, _] =>
    ∀ t, sol.v b t = sol.v a (t - d) ∧ sol.i l.inst 0 t = 0 ∧ sol.i l.inst 2 t = 0
  | .other _, _ => True
  | _, _ => False

/-- The current from the node `a` into the device of a line. -/
def inflow (sol : Sol) (a : String) (t : ℝ) (l : Line ℝ) : ℝ :=
  (l.nodes.mapIdx fun k b => if b = a then sol.i l.inst k t else 0).sum

/-- The total current from the node `a` into the devices of a netlist. -/
def leaving (sol : Sol) (body : List (Line ℝ)) (a : String) (t : ℝ) : ℝ :=
  (body.map (inflow sol a t)).sum

/-- Kirchhoff's current law at the node `a`. -/
def Kirchhoff (sol : Sol) (body : List (Line ℝ)) (a : String) : Prop :=
  ∀ t, leaving sol body a t = 0

/-- A sub-circuit with the given definition: inside, all devices obey their laws, the potentials at
its ports are the given ones, the current into a port is what the inner devices draw from that node,
and Kirchhoff's law holds at the inner nodes. -/
def ObeysDef (law : Law) (D : Def ℝ) (v i : ℕ → ℝ → ℝ) : Prop :=
  ∃ sol : Sol, (∀ l ∈ D.body, Obeys law sol l) ∧
    (∀ k (h : k < D.ports.length), sol.v D.ports[k] = v k ∧ i k = leaving sol D.body D.ports[k]) ∧
    ∀ a, a ∉ D.ports → Kirchhoff sol D.body a

/-- An ideal differential op-amp with the terminals `VDD VSS VCM IN_P IN_N OUT_P OUT_N`: its inputs
are at the same potential and draw no current. -/
def IdealOpamp (v i : ℕ → ℝ → ℝ) : Prop := v 3 = v 4 ∧ i 3 = 0 ∧ i 4 = 0

/-- The terminal behaviour of a differential op-amp with one pole (the same terminals): no current
into the inputs and supplies, outputs symmetric around the common mode, and each output follows
`y' = -w (e + y / A)` where `e` is the voltage between the inputs. -/
def OnePole (w A : ℝ) (v i : ℕ → ℝ → ℝ) : Prop :=
  (∀ t, i 0 t = 0 ∧ i 1 t = 0 ∧ i 3 t = 0 ∧ i 4 t = 0 ∧ i 2 t = - (i 5 t + i 6 t)) ∧
  ∃ y : ℝ → ℝ, (∀ t, v 5 t = v 2 t + y t ∧ v 6 t = v 2 t - y t) ∧
    ∀ t, HasDerivAt y (- w * ((v 3 t - v 4 t) + y t / A)) t

/-- The voltage between two nodes. -/
def diff (sol : Sol) (p n : String) (t : ℝ) : ℝ := sol.v p t - sol.v n t

/-- The state equation `dx/dt = A x + B u + Gamma s`. -/
def StateEquation (N L M : ℕ) (A B G : ℕ → ℕ → ℝ) (x u s : ℕ → ℝ → ℝ) : Prop :=
  ∀ n < N, ∀ t, HasDerivAt (x n)
    (∑ j ∈ Finset.range N, A n j * x j t + ∑ l ∈ Finset.range L, B n l * u l t
      + ∑ m ∈ Finset.range M, G n m * s m t) t

/-- `b` is the largest magnitude among the entries of an `N` by `L` matrix. -/
def LargestEntry (N L : ℕ) (B : ℕ → ℕ → ℝ) (b : ℝ) : Prop :=
  (∃ n < N, ∃ l < L, |B n l| = b) ∧ ∀ n < N, ∀ l < L, |B n l| ≤ b

end Cbadc.Circuit.Spec
