import Verif.Model.BuildCfg
import Verif.Model.RootSettings
/-!
# Configuration settings of the command line in the build phase

`UVMRoot.build_phase` (src/uvm/base/uvm_root.py 513-527) turns the arguments `+uvm_set_config_int` and `+uvm_set_config_string` into
calls of `UVMConfigDb.set` with the root as context (642-658, 719-775; `Verif.Model.RootSettings`).  Settings made before `run_test` have
the same context and precedence (see `Verif.Model.BuildCfg`); they come first.
-/
namespace Verif.BuildCfg
open Verif.Resource
open Verif.RootSettings (Cfg Val doConfigSettings)
open Verif.Text (Str)
variable {V : Type}

/-- 766-775: the call made for a setting; a wrong setting makes none (C206).  `emb`: the Python value. -/
def cfgAct (emb : Val → V) : Cfg → Option (Act V)
  | .set c f v => some (.set (String.ofList c) (String.ofList f) (emb v))
  | _ => none

/-- 513-527: what the build phase of the root does to the configuration. -/
def rootActs (emb : Val → V) (argv : List Str) : List (Act V) := (doConfigSettings argv).filterMap (cfgAct emb)

/-- User code with a root: settings before `run_test`, then those of the command line; `other` is the code of all other components. -/
def withRoot (emb : Val → V) (argv : List Str) (root : Nat) (before : List (String × String × V)) (other : Nat → Db V → List (Act V))
    (c : Nat) (db : Db V) : List (Act V) :=
  if c = root then before.map (fun x => .set x.1 x.2.1 x.2.2) ++ rootActs emb argv else other c db

end Verif.BuildCfg
