import Verif.Model.Traverse
import Verif.Model.ConfigAuto
/-!
# The build phase with configuration of registered fields: the traversal, `UVMConfigDb.set` and `super().build_phase(phase)` together

As in `Verif.Model.BuildCfg`, the order of the components is that of `UVMTopdownPhase.traverse`, and the `build_phase` of a component is user code: any list of
calls, which may depend on the database.  The attributes of a component before `super().build_phase(phase)` are those its own code gave it.
-/
namespace Verif.BuildAuto
open Verif.Resource
open Verif.ConfigAuto (Val Field)

/-- A call made in a `build_phase`: `UVMConfigDb.set(self, inst, field, v)`, or `super().build_phase(phase)` of a component with attributes `a`. -/
inductive Act where
  | set (inst field : String) (v : Val)
  | super (a : String → Val)

/-- The database, the names of its table in the order of their first use (uvm_resource.py 1005-1068), and all calls so far: by whom, which, and the
attributes after `super().build_phase(phase)`. -/
structure St where
  db : Db Val := {}
  keys : List String := []
  log : List (Nat × Act × Option (String → Val)) := []

/-- uvm_resource.py 1005-1068: the table of names keeps the order of insertion. -/
def addKey (keys : List String) (f : String) : List String := if f ∈ keys then keys else keys ++ [f]

/-- One call in the build phase: uvm_config_db.py 151-261; uvm_component.py 491-499, 1154-1246. -/
def exec (e : Env Val) (fields : Nat → List Field) (c : Nat) (st : St) : Act → St
  | .set inst f v => ⟨cfgSet e true st.db c inst f v true, addKey st.keys f, st.log ++ [(c, .set inst f v, none)]⟩
  | .super a =>
    { st with log := st.log ++ [(c, .super a, some (ConfigAuto.apply (fields c) (ConfigAuto.lookupScope e st.db st.keys (e.fullName c)) a).attrs)] }

/-- `build_phase` of component `c`, uvm_topdown_phase.py 84-105. -/
def buildComp (e : Env Val) (fields : Nat → List Field) (code : Nat → Db Val → List Act) (st : St) (c : Nat) : St := (code c st.db).foldl (exec e fields c) st

/-- The whole phase, in the order of the traversal. -/
def build (e : Env Val) (fields : Nat → List Field) (code : Nat → Db Val → List Act) (order : List Nat) : St := order.foldl (buildComp e fields code) {}

end Verif.BuildAuto
