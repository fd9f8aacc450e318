import Verif.Model.Traverse
import Verif.Model.Resource
/-!
# The build phase with configuration: the traversal of the component tree and `UVMConfigDb` together

The order of the components is that of `UVMTopdownPhase.traverse` (`Verif.Model.Traverse`), the database that of `Verif.Model.Resource`.  What the
`build_phase` of a component does is user code: any list of `UVMConfigDb.set` and `UVMConfigDb.get` calls with `self` as context, which may depend on
what is in the database when the phase reaches the component.  Settings made before `run_test` with context None have the root as context
(uvm_config_db.py 203-204) and, since the depth of the root is 0, the same precedence as in the build phase (235-238): they are taken as made by the root.
-/
namespace Verif.BuildCfg
open Verif.Resource
variable {V : Type}

/-- A call made in a `build_phase`. -/
inductive Act (V : Type) where
  | set (inst field : String) (v : V)
  | get (inst field : String)
deriving DecidableEq, Repr

/-- The database, and all calls so far: by whom, which, and what a `get` found. -/
structure St (V : Type) where
  db : Db V := {}
  log : List (Nat × Act V × Option V) := []

/-- One call in the build phase, uvm_config_db.py 90-148 and 151-261. -/
def exec (e : Env V) (c : Nat) (st : St V) : Act V → St V
  | .set inst f v => ⟨cfgSet e true st.db c inst f v true, st.log ++ [(c, .set inst f v, none)]⟩
  | .get inst f => ⟨st.db, st.log ++ [(c, .get inst f, cfgGet e st.db c inst f)]⟩

/-- `build_phase` of component `c`, uvm_topdown_phase.py 84-105. -/
def buildComp (e : Env V) (code : Nat → Db V → List (Act V)) (st : St V) (c : Nat) : St V := (code c st.db).foldl (exec e c) st

/-- The whole phase, in the order of the traversal. -/
def build (e : Env V) (code : Nat → Db V → List (Act V)) (order : List Nat) : St V := order.foldl (buildComp e code) {}

end Verif.BuildCfg
