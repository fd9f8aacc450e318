import Verif.Model.Factory
import Verif.Model.Traverse
/-!
# The build phase with the factory: the traversal of the component tree and `UVMDefaultFactory` together

The order of the components is that of `UVMTopdownPhase.traverse` (`Verif.Model.Traverse`), the factory that of `Verif.Model.Factory`.  What the
`build_phase` of a component does to the factory is user code: any list of registrations, overrides and creations, which may depend on the factory
when the phase reaches the component.  `set_inst_override_by_type` of a component (C334) is `Op.inst` with the full path.
-/
namespace Verif.BuildFactory
open Verif.Factory

/-- The factory, and all calls so far: by whom, which, and the outcome of a creation. -/
structure St where
  f : Factory := {}
  log : List (Nat × Op × Option Res) := []

/-- uvm_factory.py 470-571: what a creation gives. -/
def outcome (e : Env) (fuel : Nat) (f : Factory) : Op → Option Res
  | .create t p n => some (createByType e f fuel t p n)
  | .createByName t p n => some (createByName e f fuel t p n)
  | _ => none

/-- One call in the build phase, uvm_factory.py 158-718. -/
def exec (e : Env) (fuel : Nat) (c : Nat) (st : St) (op : Op) : St :=
  ⟨step e fuel st.f op, st.log ++ [(c, op, outcome e fuel st.f op)]⟩

/-- `build_phase` of component `c`, src/uvm/base/uvm_topdown_phase.py 84-105. -/
def buildComp (e : Env) (fuel : Nat) (code : Nat → Factory → List Op) (st : St) (c : Nat) : St := (code c st.f).foldl (exec e fuel c) st

/-- The whole phase, in the order of the traversal. -/
def build (e : Env) (fuel : Nat) (code : Nat → Factory → List Op) (order : List Nat) : St := order.foldl (buildComp e fuel code) {}

end Verif.BuildFactory
