import Verif.Model.Resource
import Verif.Util.Machine
/-!
# Search priorities of resources: `UVMResourcePool.set_priority_name` (src/uvm/base/uvm_resource.py)

`set_priority_type`, `set_priority` and `UVMResource.set_priority` are commented out (840, 1524-1550, 1589-1598).
-/
namespace Verif.RsrcPrio
open Verif.Resource

variable {V : Type}

/-- `PRI_HIGH`, `PRI_LOW`. -/
inductive Pri where
  | high | low
deriving DecidableEq, Repr

/-- 1487-1519: `set_priority_queue`: a resource that is not in the queue is an error (`none`). -/
def setPriorityQueue (q : List Nat) (id : Nat) (pri : Pri) : Option (List Nat) :=
  if id ∈ q then
    match pri with
    | .high => some (q.erase id ++ [id])
    | .low => some (q.erase id ++ [id])
  else none

/-- 1560-1584: `set_priority_name(rsrc, pri)`; the second component tells whether an error was reported.  A name without a queue is an error as well. -/
def setPriority (d : Db V) (id : Nat) (pri : Pri) : Db V × Bool :=
  match d.heap[id]? with
  | none => (d, true)
  | some r => match setPriorityQueue (d.rtab r.name) id pri with
    | none => (d, true)
    | some q => ({ d with rtab := setTab d.rtab r.name q }, false)

/-- Calls on the pool and the databases; the resource of a priority call is given by its number. -/
inductive Op (V : Type) where
  | cfgSet (ctx : Nat) (inst field : String) (v : V) (build : Bool)
  | dbSet (scope name : String) (v : V) (acc : Option String)
  | priority (id : Nat) (pri : Pri)

/-- One call. -/
def step (e : Env V) (auditing : Bool) (d : Db V) : Op V → Db V × Bool
  | .cfgSet ctx inst field v build => (cfgSet e auditing d ctx inst field v build, false)
  | .dbSet scope name v acc => (dbSet e auditing d scope name v acc, false)
  | .priority id pri => setPriority d id pri

end Verif.RsrcPrio
