import Verif.Model.PortRel
/-!
# The three forms of connection
-/
namespace Verif.PortRel
open Verif.Port (Kind)

/-- `d` is a child of `c`. -/
def ChildOf (d c : List String) : Prop := ∃ x, d = c ++ [x]

/-- Two components at the same level: children of one component (or both are the root). -/
def SameLevel (c d : List String) : Prop := (∃ e, ChildOf c e ∧ ChildOf d e) ∨ (c = [] ∧ d = [])

/-- The three forms of the messages: `child_component.child_port.connect(parent_port)`, `component1.port.connect(component2.export)`,
`parent_export.connect(child_component.child_export)`. -/
inductive Form (c d : List String) : Kind → Kind → Prop where
  | up : ChildOf c d → Form c d .port .port
  | acrossExport : SameLevel c d → Form c d .port .export
  | acrossImp : SameLevel c d → Form c d .port .imp
  | downExport : ChildOf d c → Form c d .export .export
  | downImp : ChildOf d c → Form c d .export .imp

end Verif.PortRel
