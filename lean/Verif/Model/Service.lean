import Verif.Util.Machine
/-!
# Model of the core service (src/uvm/base/uvm_coreservice.py) together with a registry of types (src/uvm/base/uvm_registry.py)

Which factory is current, what the registry knows and what `reset` forgets.  There are no overrides here (see `Verif.Model.Factory`), and one registry
stands for the two, which are alike: `UVMComponentRegistry` (53-224) and `UVMObjectRegistry` (227-368); a name used in both is not modelled.
-/
namespace Verif.Service

abbrev Class := Nat
abbrev Name := Nat

/-- Factories: those made by the user and those made by the service, in order. -/
inductive FId where
  | user (k : Nat)
  | own (k : Nat)
deriving DecidableEq, Repr

/-- uvm_coreservice.py 33-39 and uvm_registry.py 66-69: `factory`; `comps`, `registered`; the names that the factories know; how many factories the service
has made. -/
structure St where
  cur : Option FId
  classes : Name → Option Class
  registered : Name → Option Bool
  names : FId → List Name
  made : Nat

def init : St := ⟨none, fun _ => none, fun _ => none, fun _ => [], 0⟩

/-- uvm_coreservice.py 69-81: `get_factory`. -/
def getFactory (s : St) : FId × St :=
  match s.cur with
  | some f => (f, s)
  | none => (.own s.made, { s with cur := some (.own s.made), made := s.made + 1 })

/-- uvm_factory.py 158-201: `register`, of the names. -/
def register (s : St) (f : FId) (n : Name) : St :=
  { s with names := fun g => if g = f then (if n ∈ s.names f then s.names f else n :: s.names f) else s.names g }

/-- uvm_registry.py 116-128, 278-290: `get`; `none`: KeyError. -/
def get (s : St) (n : Name) : Option St :=
  match s.registered n with
  | none => none
  | some true => some s
  | some false =>
    let q := getFactory s
    let s := register q.2 q.1 n
    some { s with registered := fun m => if m = n then some true else s.registered m }

/-- What a call gives. -/
inductive Res where
  | none
  | inst (c : Class)
  | keyError
  | unknown
deriving DecidableEq, Repr

/-- uvm_registry.py 71-82, 235-247: the proxy of a class that is defined (`uvm_object_utils`, `uvm_component_utils`). -/
def define (s : St) (c : Class) (n : Name) : St :=
  let s := { s with classes := fun m => if m = n then some c else s.classes m, registered := fun m => if m = n then some false else s.registered m }
  (get s n).getD s

/-- uvm_registry.py 91-104, 257-266: the instance that a proxy of that name makes. -/
def construct (s : St) (n : Name) : Res :=
  match s.classes n with
  | some c => .inst c
  | .none => .keyError

/-- uvm_registry.py 130-154, 292-323: `create` of the type id of a class of that name. -/
def create (s : St) (n : Name) : St × Res :=
  let s := (getFactory s).2
  match get s n with
  | .none => (s, .keyError)
  | some s => (s, construct s n)

/-- uvm_factory.py 470-494: `create_object_by_name` of the factory of the service. -/
def byName (s : St) (n : Name) : St × Res :=
  let q := getFactory s
  (q.2, if n ∈ q.2.names q.1 then construct q.2 n else .unknown)

inductive Op where
  | define (c : Class) (n : Name)
  | create (n : Name)
  | byName (n : Name)
  | setFactory (k : Nat)
  | reset
deriving DecidableEq, Repr

/-- `set_factory` (83-92); `reset` (53-59 with uvm_registry.py 84-89, 249-254): a new service, empty registries; factories stay as they are. -/
def step (s : St) : Op → St × Res
  | .define c n => (define s c n, .none)
  | .create n => create s n
  | .byName n => byName s n
  | .setFactory k => ({ s with cur := some (.user k) }, .none)
  | .reset => ({ s with cur := none, classes := fun _ => none, registered := fun _ => none }, .none)

end Verif.Service
