import Verif.Model.Port
/-!
# Model of the check of the places of connected ports

src/uvm/base/uvm_port_base.py: `m_check_relationship`, called by `connect`.  A component is the list of names on the way from
the root to it (`[]` is the root, see `Verif.Model.Component`).
-/
namespace Verif.PortRel
open Verif.Port (Kind)

/-- `get_parent` of a component (uvm_component.py: `m_parent`): the root has none. -/
def parent (c : List String) : Option (List String) := if c = [] then none else some c.dropLast

/-- Where a port is: the component it was made in, and whether its type name is "uvm_analysis_port" (uvm_analysis_port.py 60-61). -/
structure Place where
  owner : List String
  analysis : Bool
deriving DecidableEq, Repr

/-- 557-618: is a warning reported?  578-579 do not apply: the component of a port always has a parent, if only the root. -/
def warns (pk : Kind) (p : Place) (qk : Kind) (q : Place) : Bool :=
  if p.analysis then false                                                                       -- 570-571
  else if pk = .port ∧ qk = .port ∧ parent p.owner ≠ some q.owner then true                      -- 586-593
  else if pk = .port ∧ (qk = .export ∨ qk = .imp) ∧ parent p.owner ≠ parent q.owner then true    -- 598-605
  else if pk = .export ∧ (qk = .export ∨ qk = .imp) ∧ some p.owner ≠ parent q.owner then true    -- 610-617
  else false

/-- 328-421: `connect` with the warning: made only after the errors are excluded (418), and its result is not used. -/
def connect (nm : Nat → String) (place : Nat → Place) (s : Port.State) (p : Nat) (prov : Option Nat) : Port.State × Port.ConnRes × Bool :=
  let r := Port.connect nm s p prov
  (r.1, r.2, match prov with
    | none => false
    | some q => if r.2 = .done then warns (s.node p).kind (place p) (s.node q).kind (place q) else false)

end Verif.PortRel
