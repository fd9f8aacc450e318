/-!
# Model of the resource pool and the configuration database

`src/uvm/base/uvm_resource.py` (UVMResource, UVMResourcePool), `src/uvm/base/uvm_resource_db.py`, `src/uvm/base/uvm_config_db.py`.

Resources are objects: `heap` holds them by creation order and the tables hold indices into it.  Values, their equality (`==`) and
scope matching (`match_scope`, i.e. `uvm_re_match(uvm_glob_to_re(scope), s)`) are parameters.  Left out: printing and
tracing, the history of gets, the type table (nothing reads it: `get_by_type` does not exist), `wait_modified`.
-/
namespace Verif.Resource

/-- Parameters: `none` is Python's `None`, `eqv old new` is `old == new`; `fullName`/`mName` are a component's `get_full_name()` and
`m_name`. -/
structure Env (V : Type) where
  none : V
  eqv : V → V → Bool
  matchScope : String → String → Bool
  fullName : Nat → String
  mName : Nat → String

/-- uvm_resource.py 225-256, 628-631. `creator` is not in the code and never read by the model: it remembers, for the proofs, the
context whose `UVMConfigDb.set` made the resource. -/
structure Rsrc (V : Type) where
  name : String
  scope : String
  val : V
  prec : Int := 1000
  readOnly : Bool := false
  modified : Bool := false
  access : String → Nat × Nat := fun _ => (0, 0)
  creator : Option Nat := .none

variable {V : Type}

/-- 480-548: `record_read_access`; `acc` is the accessor's full name. -/
def recordRead (auditing : Bool) (r : Rsrc V) (acc : Option String) : Rsrc V :=
  if !auditing then r
  else
    let s := acc.getD "<empty>"
    { r with access := fun t => if t = s then ((r.access s).1 + 1, (r.access s).2) else r.access t }

/-- 550-572: `record_write_access`. -/
def recordWrite (auditing : Bool) (r : Rsrc V) (acc : Option String) : Rsrc V :=
  if !auditing then r
  else match acc with
    | .none => r
    | some s => { r with access := fun t => if t = s then ((r.access s).1, (r.access s).2 + 1) else r.access t }

/-- 792-825: `write`. -/
def write (e : Env V) (auditing : Bool) (r : Rsrc V) (v : V) (acc : Option String) : Rsrc V :=
  if r.readOnly then r
  else if e.eqv r.val v then r
  else { recordWrite auditing r acc with val := v, modified := true }

/-- 787-790: `read`. -/
def read (auditing : Bool) (r : Rsrc V) (acc : Option String) : Rsrc V × V := (recordRead auditing r acc, r.val)

/-- Calls on one resource; `ackModified` is the end of `wait_modified` (319). -/
inductive ROp (V : Type) where
  | read (acc : Option String)
  | write (v : V) (acc : Option String)
  | setReadOnly
  | setReadWrite
  | ackModified

/-- 277-290, 319. -/
def rstep (e : Env V) (auditing : Bool) (r : Rsrc V) : ROp V → Rsrc V × Option V
  | .read acc => ((read auditing r acc).1, some (read auditing r acc).2)
  | .write v acc => (write e auditing r v acc, .none)
  | .setReadOnly => ({ r with readOnly := true }, .none)
  | .setReadWrite => ({ r with readOnly := false }, .none)
  | .ackModified => ({ r with modified := false }, .none)

/-! ## Queues of resources -/

/-- 1251-1255 and 890-902: the loop over the rest of the queue. -/
def bestOf (best : Rsrc V) : List (Rsrc V) → Rsrc V
  | [] => best
  | r :: q => if r.prec > best.prec then bestOf r q else bestOf best q

/-- 1223-1256: `UVMResourcePool.get_highest_precedence`, and 846-903 `UVMResource.get_highest_precedence` with `T=None`. -/
def highest : List (Rsrc V) → Option (Rsrc V)
  | [] => .none
  | r :: q => some (bestOf r q)

/-- 846-903: `UVMResource.get_highest_precedence(q, T)`: `isT r` is `isinstance(r, T)`.  The first loop finds the first resource of the
type, the second compares the following ones. -/
def highestT (isT : Rsrc V → Bool) : List (Rsrc V) → Option (Rsrc V)
  | [] => .none
  | r :: q => if isT r then some (bestOf r (q.filter isT)) else highestT isT q

/-- `_all[prec].push_front(r)` (1280-1284), the dictionary being kept in insertion order. -/
def pushGroup (g : List (Int × List (Rsrc V))) (r : Rsrc V) : List (Int × List (Rsrc V)) :=
  match g with
  | [] => [(r.prec, [r])]
  | (p, l) :: g => if p = r.prec then (p, r :: l) :: g else (p, l) :: pushGroup g r

/-- 1261-1291: `sort_by_precedence`: `qq.insert(0, r)` for each group in insertion order. -/
def sortByPrecedence (q : List (Rsrc V)) : List (Rsrc V) :=
  (q.foldl pushGroup []).foldl (fun qq g => g.2.foldl (fun qq r => r :: qq) qq) []

/-! ## Pool and databases -/

/-- 967-974 and uvm_config_db.py 83: `rtab` by name, `m_rsc` by context and lookup string. -/
structure Db (V : Type) where
  heap : List (Rsrc V) := []
  rtab : String → List Nat := fun _ => []
  cfg : Nat → String → Option Nat := fun _ _ => .none

def setTab (t : String → List Nat) (n : String) (q : List Nat) : String → List Nat := fun m => if m = n then q else t m

/-- 1005-1068: `pool.set(rsrc, override)`, name table.  A resource without name gets a queue of its own (1029-1052). -/
def poolSet (t : String → List Nat) (name : String) (id : Nat) (override : Bool) : String → List Nat :=
  let rq := if name ≠ "" then t name else []
  setTab t name (if override then id :: rq else rq ++ [id])

/-- 1172-1221: `lookup_name` (every resource has the same type handle, see 654-670). -/
def lookupName (e : Env V) (d : Db V) (scope name : String) : List Nat :=
  if name = "" then []
  else (d.rtab name).filter fun id => match d.heap[id]? with
    | .none => false
    | some r => e.matchScope r.scope scope

/-- The loop of `get_highest_precedence` on indices. -/
def bestId (d : Db V) (best : Nat) : List Nat → Nat
  | [] => best
  | i :: q => if ((d.heap[i]?).map (·.prec)).getD 0 > ((d.heap[best]?).map (·.prec)).getD 0 then bestId d i q else bestId d best q

/-- 1294-1326: `get_by_name`. -/
def getByName (e : Env V) (d : Db V) (scope name : String) : Option Nat :=
  match lookupName e d scope name with
  | [] => .none
  | i :: q => some (bestId d i q)

def modify (d : Db V) (id : Nat) (f : Rsrc V → Rsrc V) : Db V := { d with heap := d.heap.modify id f }

/-- uvm_resource.py 1487-1519 with 1560-1584: `set_priority_name(rsrc, pri)`: both priorities append. -/
def setPriorityName (d : Db V) (id : Nat) (name : String) : Db V :=
  if id ∈ d.rtab name then { d with rtab := setTab d.rtab name ((d.rtab name).erase id ++ [id]) } else d

/-- uvm_config_db.py 128-131, 210-213, 286-289: the path an instance name stands for in a context. -/
def instName (e : Env V) (ctx : Nat) (inst : String) : String :=
  if inst = "" then e.fullName ctx
  else if e.fullName ctx ≠ "" then e.fullName ctx ++ "." ++ inst
  else inst

/-- uvm_component.py 445-460: `get_depth`. -/
def depth (e : Env V) (ctx : Nat) : Nat :=
  if e.mName ctx = "" then 0 else 1 + (e.mName ctx).toList.countP (· = '.')

/-- uvm_config_db.py 225. -/
def lookupKey (inst field : String) : String := inst ++ "__M_UVM__" ++ field

/-- uvm_config_db.py 235-238. -/
def setPrec (e : Env V) (ctx : Nat) (build : Bool) : Int := if build then 1000 - depth e ctx else 1000

/-- uvm_config_db.py 151-261: `UVMConfigDb.set`; `build`: the current phase is "build".  The waiters (250-255) are left out: nothing can
wait, `wait_modified` is not implemented. -/
def cfgSet (e : Env V) (auditing : Bool) (d : Db V) (ctx : Nat) (inst field : String) (v : V) (build : Bool) : Db V :=
  let path := instName e ctx inst
  let key := lookupKey path field
  let upd (r : Rsrc V) : Rsrc V := write e auditing { r with prec := setPrec e ctx build } v (some (e.fullName ctx))
  match d.cfg ctx key with
  | .none =>
    let id := d.heap.length
    let r : Rsrc V := { name := field, scope := path, val := e.none, creator := some ctx }
    { heap := d.heap ++ [upd r]
      rtab := poolSet d.rtab field id true
      cfg := fun c k => if c = ctx ∧ k = key then some id else d.cfg c k }
  | some id =>
    let d := modify d id upd
    setPriorityName d id (match d.heap[id]? with
      | some r => r.name
      | .none => "")

/-- uvm_config_db.py 90-148: `UVMConfigDb.get` (with `T=None`): the value appended, `none` for `False`. -/
def cfgGet (e : Env V) (d : Db V) (ctx : Nat) (inst field : String) : Option V :=
  match getByName e d (instName e ctx inst) field with
  | .none => .none
  | some id => (d.heap[id]?).map (·.val)

/-- uvm_config_db.py 90-148 with a type: the *resource* (not its value) is cast to `T`. -/
def cfgGetT (e : Env V) (isT : Rsrc V → Bool) (d : Db V) (ctx : Nat) (inst field : String) : Option V :=
  (highestT isT ((lookupName e d (instName e ctx inst) field).filterMap (d.heap[·]?))).map (·.val)

/-- uvm_config_db.py 264-291: `exists`. -/
def cfgExists (e : Env V) (d : Db V) (ctx : Nat) (inst field : String) : Bool :=
  (getByName e d (instName e ctx inst) field).isSome

/-- uvm_resource_db.py 150-156: `UVMResourceDb.set`. -/
def dbSet (e : Env V) (auditing : Bool) (d : Db V) (scope name : String) (v : V) (acc : Option String) : Db V :=
  let id := d.heap.length
  { d with
    heap := d.heap ++ [write e auditing { name, scope, val := e.none } v acc]
    rtab := poolSet d.rtab name id false }

/-- uvm_resource_db.py 240-251: `read_by_name`. -/
def dbRead (e : Env V) (d : Db V) (scope name : String) : Option V :=
  match getByName e d scope name with
  | .none => .none
  | some id => (d.heap[id]?).map (·.val)

/-- uvm_resource_db.py 293-301: `write_by_name`. -/
def dbWrite (e : Env V) (auditing : Bool) (d : Db V) (scope name : String) (v : V) (acc : Option String) : Db V × Bool :=
  match getByName e d scope name with
  | .none => (d, false)
  | some id => (modify d id (fun r => write e auditing r v acc), true)

end Verif.Resource
