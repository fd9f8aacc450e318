/-!
# Model of the choice of the map that serves an access

`src/uvm/reg/uvm_reg.py` (R) and `src/uvm/reg/uvm_mem.py` (M): `get_local_map`, `get_default_map`, `is_in_map`, `get_rights`,
`get_access` of memories.

An address map is its name (a number) together with its chain of parent maps (`get_parent_map`), so chains are finite; maps are compared
by identity, i.e. by name.  The maps of an element are the keys of `m_maps` in insertion order.  Warnings are counted.
-/
namespace Verif.MapSel

/-- A map: root, or submap of another one. -/
inductive RMap where
  | root (name : Nat)
  | sub (name : Nat) (parent : RMap)
deriving DecidableEq, Repr

namespace RMap
def name : RMap → Nat
  | root n => n
  | sub n _ => n
def parent : RMap → Option RMap
  | root _ => none
  | sub _ p => some p
end RMap

/-- R 340-345, 379-384: following `get_parent_map()`, is `m` found? -/
def loopUp (m : Nat) : RMap → Bool
  | .root _ => false
  | .sub _ p => if p.name = m then true else loopUp m p

/-- R 375-384: the local map for the map `m` (given, not `None`). -/
def localOf (maps : List RMap) (m : RMap) : Option RMap :=
  if maps.any (fun l => l.name == m.name) then some m
  else maps.find? (loopUp m.name)

/-- R 415-425: the loop over the maps of `get_default_map`; `dflt l`: the default map of the block the map `l` belongs to.  The second
component counts the warnings of `get_local_map`. -/
def defaultLoop (dflt : RMap → Option RMap) (maps : List RMap) : List RMap → Option RMap × Nat
  | [] => (maps.head?, 0)
  | l :: ls =>
    match dflt l with
    | none => defaultLoop dflt maps ls
    | some d =>
      match localOf maps d with
      | some x => (some x, 0)
      | none => let r := defaultLoop dflt maps ls; (r.1, r.2 + 1)

/-- R 391-425: `UVMReg.get_default_map`. -/
def defaultReg (dflt : RMap → Option RMap) (maps : List RMap) : Option RMap × Nat :=
  match maps with
  | [] => (none, 1)                                   -- 405-409
  | [m] => (some m, 0)                                -- 411-412
  | maps => defaultLoop dflt maps maps

/-- M 316-346: `UVMMem.get_default_map`; 331-332 assigns a variable that is not used.  The loop 335-342 runs over a `UVMPool`, which has no
`__iter__`: Python asks the pool for the items 0, 1, ..., and as its keys are maps there is no item 0 and the loop ends at once
(`Verif.PoolIter`). -/
def defaultMem (maps : List RMap) : Option RMap × Nat :=
  match maps with
  | [] => (none, 1)
  | m :: _ => (some m, 0)

/-- R 362-389: `get_local_map`. -/
def localReg (dflt : RMap → Option RMap) (maps : List RMap) : Option RMap → Option RMap × Nat
  | none => defaultReg dflt maps
  | some m => match localOf maps m with
    | some l => (some l, 0)
    | none => (none, 1)

/-- M 293-303: the local map for the map `m` (given, not `None`); the loop 296-303 runs over a `UVMPool` and ends at once, see
`defaultMem`. -/
def localOfMem (maps : List RMap) (m : RMap) : Option RMap :=
  if maps.any (fun l => l.name == m.name) then some m else none

/-- M 290-311. -/
def localMem (maps : List RMap) : Option RMap → Option RMap × Nat
  | none => defaultMem maps
  | some m => match localOfMem maps m with
    | some l => (some l, 0)
    | none => (none, 1)

/-- R 336-346: `is_in_map`. -/
def isInMap (maps : List RMap) (m : RMap) : Bool :=
  if maps.any (fun l => l.name == m.name) then true else maps.any (loopUp m.name)

/-- Access modes of memories and rights in maps; `other` is any other string. -/
inductive Mode where
  | rw | ro | wo | other
deriving DecidableEq, Repr

/-- M 369-382 / R 433-460: `rights l` is `info.rights` of the element in its map `l`. -/
def rightsMem (maps : List RMap) (rights : RMap → Mode) (m : Option RMap) : Mode :=
  if maps.length ≤ 1 then .rw                                     -- 374-375
  else match (localMem maps m).1 with
    | none => .rw
    | some l => rights l

def rightsReg (dflt : RMap → Option RMap) (maps : List RMap) (rights : RMap → Mode) (m : Option RMap) : Mode :=
  match (localReg dflt maps m).1 with
  | none => .rw
  | some l => rights l

/-- M 401-435: `get_access` of a memory made with access `acc`: the value returned (`none`: the function ends without `return`) and
whether an error was reported. -/
def accessMem (maps : List RMap) (rights : RMap → Mode) (acc : Mode) (m : Option RMap) : Option Mode × Bool :=
  if maps.length = 1 then (some acc, false)                       -- 403-404
  else match (localMem maps m).1 with
    | none => (some acc, false)                                   -- 406-407
    | some l =>
      match rightsMem maps rights (some l) with
      | .rw => (some acc, false)                                  -- 411-413
      | .ro => (none, !(acc == .rw || acc == .ro))                -- 414-422
      | .wo => (none, !(acc == .rw || acc == .wo))                -- 424-432
      | .other => (none, true)                                    -- 433-435

end Verif.MapSel
