import Verif.Model.Resource
import Verif.Model.Printer
import Verif.Model.PoolIter
/-!
# Model of users of the configuration: the agent, and the printout of the visible resources

`src/uvm/comps/uvm_agent.py`, `src/uvm/base/uvm_component.py` 1276-1327, `src/uvm/base/uvm_resource.py` 1432-1466, 1640-1686.

The records of the reads that `build_phase` of the agent makes are left out (C63 is about them).  A resource is printed as an object
without fields: `UVMResource` registers none and its `do_print` is commented out.
-/
namespace Verif.AgentCfg
open Verif.Resource (Db Env Rsrc lookupName sortByPrecedence)
open Verif.Printer (Text Knobs Obj St)

variable {V : Type}

/-- uvm_agent.py 75-78: the loop; `is_active` after it. -/
def readAll (auditing : Bool) (acc : String) : List (Rsrc V) → V → V
  | [], a => a
  | r :: rq, _ => readAll auditing acc rq (Resource.read auditing r (some acc)).2

/-- uvm_agent.py 60, 63-78: `is_active` after the constructor (`active` is `UVM_ACTIVE`) and `build_phase`; an agent of the library has no
registered fields, so that `UVMComponent.build_phase` (68) does not assign it. -/
def build (e : Env V) (auditing : Bool) (d : Db V) (agent : Nat) (active : V) : V :=
  let rq := (lookupName e d (e.fullName agent) "is_active").filterMap (d.heap[·]?)
  readAll auditing (e.fullName agent) (sortByPrecedence rq) active

/-! ## The printout of the visible resources -/

/-- One line of the printout: a message, or a text on the standard output. -/
inductive Line where
  | info (id : String) (msg : String)
  | out (t : Text)
deriving DecidableEq, Repr

/-- How the call ends: it returns, it raises `AttributeError` or `TypeError`, or the recursion is too deep. -/
inductive End where
  | ret | attributeError | typeError | recursion
deriving DecidableEq, Repr

/-- uvm_resource.py 1655-1661 with uvm_printer.py 768-774, 873-876. -/
def lineKnobs : Knobs :=
  { size := false, typeName := false, header := false, footer := false, indent := 0, separator := [], fullName := false, identifier := false, reference := false }

/-- The resources as the printer sees them; `ty`: their type name. -/
def asObj (ty : Text) (d : Db V) (i : Nat) : Obj :=
  let n := ((d.heap[i]?).map fun r => r.name.toList).getD []
  { name := n, fullName := n, type := ty, id := i }

/-- 1667-1671: the loop over the resources; `audit`: `audit is True` (`print_accessors` does not exist); `st`: the printer. -/
def printLoop (ty : Text) (d : Db V) (audit : Bool) : List Nat → St → List Line × End
  | [], _ => ([], .ret)
  | i :: rq, st => match Printer.sprint lineKnobs (asObj ty d) 2 (Printer.treeEmit lineKnobs [' ']) i st with
    | .error _ => ([], .recursion)
    | .ok (t, st) => if audit then ([.out t], .attributeError)
      else let r := printLoop ty d audit rq st
        (.out t :: r.1, r.2)

/-- 1640-1671: `print_resources`. -/
def printResources (ty : Text) (d : Db V) (audit : Bool) (rq : List Nat) : List Line × End :=
  if rq.length = 0 then ([.info "UVM/RESOURCE/PRINT" "<none>"], .ret) else printLoop ty d audit rq {}

/-- 1458-1461. -/
def visibleIn (e : Env V) (d : Db V) (scope : String) : List Nat → List Nat
  | [] => []
  | i :: rq => (match d.heap[i]? with
      | some r => if e.matchScope r.scope scope then [i] else []
      | none => []) ++ visibleIn e d scope rq

/-- 1432-1466: `lookup_scope`; `keys`: the names of the table in the order of their first use. -/
def lookupScope (e : Env V) (d : Db V) (scope : String) (keys : List String) : List Nat :=
  keys.reverse.flatMap fun n => visibleIn e d scope (d.rtab n)

mutual
/-- uvm_component.py 1287-1313: `print_config(recurse, audit)` of the component `c`; `kids`: `m_children`; `audit`: `audit is True`. -/
def printConfig (e : Env V) (ty : Text) (d : Db V) (keys : List String) (kids : Nat → List Nat) (recurse audit : Bool) : Nat → Nat → List Line × End
  | 0, _ => ([], .recursion)
  | n + 1, c =>
    let r := printResources ty d audit (lookupScope e d (e.fullName c) keys)
    let ls := Line.info "CFGPRT" "visible resources:" :: r.1
    if r.2 = .ret then
      if recurse then
        let q := printKids e ty d keys kids recurse audit n (kids c)
        (ls ++ q.1, q.2)
      else (ls, .ret)
    else (ls, r.2)
termination_by n _ => (n, 0)
/-- 1311-1313: the loop over the children. -/
def printKids (e : Env V) (ty : Text) (d : Db V) (keys : List String) (kids : Nat → List Nat) (recurse audit : Bool) (n : Nat) : List Nat → List Line × End
  | [] => ([], .ret)
  | c :: cs =>
    let r := printConfig e ty d keys kids recurse audit n c
    if r.2 = .ret then
      let q := printKids e ty d keys kids recurse audit n cs
      (r.1 ++ q.1, q.2)
    else r
termination_by cs => (n, cs.length + 1)
end

/-- 1316-1327: `print_config_with_audit(recurse)`: it passes 1, and `1 is True` does not hold. -/
def printConfigWithAudit (e : Env V) (ty : Text) (d : Db V) (keys : List String) (kids : Nat → List Nat) (recurse : Bool) (n c : Nat) : List Line × End :=
  printConfig e ty d keys kids recurse false n c

/-- 1683-1685: the body is run for what the loop over the table is given: the queues, which are no keys (they cannot be hashed), so that 1684
raises. -/
def dumpLoop : List (List Nat) → List Line × End
  | [] => ([], .ret)
  | _ :: _ => ([], .typeError)

/-- 1681-1686: `dump()`; `rtab` is a `UVMPool` with the names as keys. -/
def dump (d : Db V) (keys : List String) : List Line × End :=
  let r := dumpLoop (PoolIter.iter (keys.map fun n => (PoolIter.Key.other n, d.rtab n)))
  (Line.info "UVM/RESOURCE/DUMP" "\n=== resource pool ===" :: r.1 ++ (if r.2 = .ret then [Line.info "UVM/RESOURCE/DUMP" "=== end of resource pool ==="] else []), r.2)

end Verif.AgentCfg
