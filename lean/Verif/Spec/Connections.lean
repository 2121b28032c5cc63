import Verif.Model.Connections

/-! # Specification: what is not connected in a hierarchy -/

namespace Cbadc.Connections.Spec

/-- `Within e s`: `s` is `e` or an element at any depth inside. -/
inductive Within : Elem → Elem → Prop
  | refl (e : Elem) : Within e e
  | inside {ts cs : List Term} {parts : List Elem} {e s : Elem} : e ∈ parts → Within e s → Within (.sub ts cs parts) s

/-- Terminal `t` of an element inside some sub-circuit of `e` has no connection there. -/
def InnerOpen (e : Elem) (t : Term) : Prop :=
  ∃ ts cs parts p, Within e (.sub ts cs parts) ∧ p ∈ parts ∧ t ∈ p.terminals ∧ t ∉ cs

/-- Terminal `t` of some sub-circuit within `e` is not connected to anything inside. -/
def OuterOpen (e : Elem) (t : Term) : Prop := ∃ ts cs parts, Within e (.sub ts cs parts) ∧ t ∈ ts ∧ t ∉ cs

end Cbadc.Connections.Spec
