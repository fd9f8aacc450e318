import Verif.Model.CompDomain
import Verif.Spec.Domain
/-!
# Domains of components: what users rely on
-/
namespace Verif.CompDomain

/-- `a` is a phase of the domain `d`: a domain is of itself, anything else of the domain of what it was added to. -/
inductive InDomain (p : Phase.State) : Nat → Nat → Prop
  | here {a} : p.kind a = .domain → InDomain p a a
  | up {a b d} : p.kind a ≠ .domain → p.parent a = some b → InDomain p b d → InDomain p a d

/-- `a` is a phase called `name` of the domain `d`. -/
structure PhaseOf (s : State) (d : Nat) (name : String) (a : Nat) : Prop where
  lt : a < s.dom.ph.next
  node : s.dom.ph.kind a = .node
  name : nm s a = name
  dom : InDomain s.dom.ph a d

/-- The component `k` is somewhere below `c`. -/
inductive Below (l : List Comp) : Nat → Nat → Prop
  | child {k x c} : l[k]? = some x → x.parent = some c → Below l k c
  | deeper {k x m c} : l[k]? = some x → x.parent = some m → Below l m c → Below l k c

/-- What a user may do: domains other than the common one are given to components, and none is called "uvm_sched". -/
def Legal (s : State) : Op → Prop
  | .newDomain n => n ≠ "uvm_sched"
  | .newComp p => p < s.comps.length
  | .setDomain c d _ => c < s.comps.length ∧ d < s.dom.ph.next ∧ s.dom.ph.kind d = .domain ∧ d ≠ 0

/-- The states a user can bring about. -/
inductive Reach : State → Prop
  | start : Reach start
  | step {s} (o : Op) : Reach s → Legal s o → Reach (step s o).1

end Verif.CompDomain
