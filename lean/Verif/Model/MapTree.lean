import Verif.Model.RegBlock
/-!
# Model of the address maps of blocks and of their submaps

src/uvm/reg/uvm_reg_map.py (`M`), src/uvm/reg/uvm_reg_block.py (`B`).  Maps and blocks are numbers; the blocks and their parents are
given (see `Verif.Model.RegBlock` for how they come about).  Blocks are not locked while maps are built; re-computing the addresses
when a submap of a locked block is moved (M 555-557) is `Verif.RegMap.initTable`.  Names of maps are given.
-/
namespace Verif.MapTree

/-- M 247-284, 286-320: a map. -/
structure M where
  block : Nat
  base : Nat
  nBytes : Nat
  endian : Nat
  parent : Option Nat := none
  subs : List (Nat × Nat) := []        -- `m_submaps`: map and offset, in order of insertion
  sqr : Option Nat := none
  adapter : Option Nat := none
deriving Repr

/-- The maps made so far, of each block its maps and its default map. -/
structure State where
  count : Nat
  map : Nat → M
  maps : Nat → List Nat
  dflt : Nat → Option Nat

def init : State := ⟨0, fun _ => ⟨0, 0, 0, 0, none, [], none, none⟩, fun _ => [], fun _ => none⟩

def upd {α} (f : Nat → α) (k : Nat) (v : α) : Nat → α := fun x => if x = k then v else f x

/-- Assignment to a key of a dictionary: a new key goes to the end. -/
def put (l : List (Nat × Nat)) (k v : Nat) : List (Nat × Nat) :=
  if k ∈ l.map Prod.fst then l.map (fun e => if e.1 = k then (k, v) else e) else l ++ [(k, v)]

inductive Out where
  | ok | warned | error | raised
deriving DecidableEq, Repr

/-- B 148-158: `create_map`. -/
def createMap (s : State) (b base nBytes endian : Nat) : State :=
  let m := s.count
  let maps := s.maps b ++ [m]
  { count := m + 1, map := upd s.map m ⟨b, base, nBytes, endian, none, [], none, none⟩, maps := upd s.maps b maps,
    dflt := if maps.length = 1 then upd s.dflt b (some m) else s.dflt }

/-- B 191-193: `set_default_map`; a map of another block is warned about, and taken. -/
def setDefault (s : State) (b m : Nat) : State × Out :=
  ({ s with dflt := upd s.dflt b (some m) }, if m ∈ s.maps b then .ok else .warned)

/-- M 485-486: the loop that climbs from the child's block to the one whose parent is `tgt`. -/
def climb (bp : Nat → Option Nat) (tgt : Nat) : Nat → Option Nat → Option Nat
  | 0, b => b
  | _ + 1, none => none
  | n + 1, some b => if bp b = some tgt then some b else climb bp tgt n (bp b)

/-- M 550-557: `set_submap_offset`. -/
def setOffset (s : State) (p : Nat) (c : Option Nat) (off : Nat) : State × Out :=
  match c with
  | none => (s, .error)
  | some c => ({ s with map := upd s.map p { s.map p with subs := put (s.map p).subs c off } }, .ok)

/-- M 614-638: `add_parent_map` (of a map without a parent: 505 is the only call). -/
def addParent (s : State) (c p off : Nat) : State :=
  let map := upd s.map c { s.map c with parent := some p }
  { s with map := upd map p { map p with subs := put (map p).subs c off } }

/-- M 460-506: `add_submap`.  489-494: the message of the error is put together from the name of `None`. -/
def addSubmap (bp : Nat → Option Nat) (n : Nat) (s : State) (p : Nat) (c : Option Nat) (off : Nat) : State × Out :=
  match c with
  | none => (s, .error)
  | some c =>
    if (s.map c).parent.isSome then (s, .error)
    else match climb bp (s.map p).block n (some (s.map c).block) with
      | none => (s, .raised)
      | some _ =>
        let out := if (s.map p).nBytes > (s.map c).nBytes then .warned else .ok
        ((setOffset (addParent s c p off) p (some c) off).1, out)

/-- M 523-534: `set_sequencer`. -/
def setSequencer (s : State) (m : Nat) (sqr adapter : Option Nat) : State × Out :=
  match sqr with
  | none => (s, .error)
  | some q => ({ s with map := upd s.map m { s.map m with sqr := some q, adapter := adapter } }, .ok)

/-- M 775-789: `get_root_map`. -/
def root (s : State) : Nat → Nat → Option Nat
  | 0, _ => none
  | n + 1, m => match (s.map m).parent with
    | none => some m
    | some p => root s n p

/-- M 892-931: `get_endian`, `get_sequencer`, `get_adapter` through the hierarchy; `f` is the attribute. -/
def hier {α} (s : State) (f : M → α) : Nat → Nat → Option α
  | 0, _ => none
  | n + 1, m => match (s.map m).parent with
    | none => some (f (s.map m))
    | some p => hier s f n p

/-- M 571-579: `get_submap_offset`. -/
def getOffset (s : State) (p c : Nat) : Option Nat := (s.map p).subs.lookup c

/-- M 951-957: `get_submaps`, through the hierarchy. -/
def submaps (s : State) : Nat → Nat → Option (List Nat)
  | 0, _ => none
  | n + 1, m => do
    let own := (s.map m).subs.map Prod.fst
    let rest ← own.mapM (submaps s n)
    some (own ++ rest.flatten)

/-- B 577-593: `get_map_by_name`. -/
def mapByName (s : State) (nm : Nat → String) (n b : Nat) (name : String) : Option (Option Nat) :=
  match (s.maps b).find? (fun m => nm m = name) with
  | some m => some (some m)
  | none => do
    let subs ← (s.maps b).mapM (submaps s n)
    some (subs.findSome? fun l => l.find? fun m => nm m = name)

/-- B 1041-1050: `write_reg_by_name`: what the caller's list of statuses gets; `none` is an exception.  1047 makes a number of the
name `status`, and `write` wants a list (uvm_reg.py 894). -/
def writeRegByName (s : RegBlock.State) (n b : Nat) (name : String) : Option (Option (List RegBlock.Status)) :=
  (RegBlock.getRegByName s n b name).map fun r => match r with
    | some _ => none
    | none => some []

inductive Op where
  | create (b base nBytes endian : Nat)
  | setDefault (b m : Nat)
  | addSubmap (p : Nat) (c : Option Nat) (off : Nat)
  | setOffset (p : Nat) (c : Option Nat) (off : Nat)
  | setSequencer (m : Nat) (sqr adapter : Option Nat)
deriving Repr

def step (bp : Nat → Option Nat) (n : Nat) (s : State) : Op → State
  | .create b base nBytes endian => createMap s b base nBytes endian
  | .setDefault b m => (setDefault s b m).1
  | .addSubmap p c off => (addSubmap bp n s p c off).1
  | .setOffset p c off => (setOffset s p c off).1
  | .setSequencer m q a => (setSequencer s m q a).1

def run (bp : Nat → Option Nat) (n : Nat) (s : State) (ops : List Op) : State := ops.foldl (step bp n) s

end Verif.MapTree
