import Verif.Model.Simulator

/-!
# Mirror image of a converter

What it means that a converter treats an input and its negative alike: the vocabulary of C163.
-/

namespace Cbadc.Mirror

open Cbadc.Analog Cbadc.Control Cbadc.Simulate

/-- the same converter with the negative inputs and the negative comparator offsets -/
abbrev config {M : ℕ} (c : Cfg M) : Cfg M :=
  ⟨c.sys, { c.dc with offsets := fun m => -c.dc.offsets m }, fun k t l => -c.input k t l, c.hasInput⟩

/-- control number `m` is decided in every period of a simulation -/
def Decided {M : ℕ} (c : Cfg M) (m : Fin M) : Prop := allclose 0 (c.dc.ir m).t0 c.dc.tt2

/-- the comparators see no tie in the period that begins at `s` -/
def NoTie {M : ℕ} (c : Cfg M) (s : St M) : Prop :=
  ∀ y, c.sys.controlObservation ⟨c.sys.N, s.x⟩ (some (c.u0 s)) (some (asVec (contribution c.dc s.c 0))) = .ok y →
    ∀ m, Decided c m → y.v m ≠ c.dc.offsets m

open Classical in
/-- the mirror image of a state of the simulator: negative states, negative decisions; the bits of the control signal are
exchanged once there has been a decision -/
noncomputable def st {M : ℕ} (c : Cfg M) (first : Bool) (s : St M) : St M :=
  ⟨s.ticks, s.t, fun n => -s.x n,
    ⟨fun m => if first = false ∧ Decided c m then 1 - s.c.s m else s.c.s m, fun m => -s.c.cur m, fun m => -s.c.old m⟩⟩

end Cbadc.Mirror
