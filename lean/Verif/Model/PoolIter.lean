import Verif.Model.Pool
/-!
# Model of `for` loops over pools

`src/uvm/base/uvm_pool.py`: `UVMPool` defines `__getitem__` (205-216) and neither `__iter__` nor `__next__`, nor do its base classes.  Python
then asks for the items 0, 1, 2, ... until `IndexError` is raised.  Used by `for` loops in `src/uvm/base/uvm_resource.py` 1683,
`src/uvm/reg/uvm_mem.py` 296, 335 and `src/uvm/reg/uvm_reg_indirect.py` 114.
-/
namespace Verif.PoolIter

/-- Keys of a pool: integers, or anything else (texts, objects) named by `a`.  `True` and `False`, which are equal to 1 and 0, are left out. -/
inductive Key (α : Type) where
  | int (n : Nat)
  | other (a : α)
deriving DecidableEq, Repr

variable {α V : Type} [DecidableEq α]

/-- uvm_pool.py 205-216: `pool[key]`; `none`: `IndexError`. -/
def getItem (items : List (Key α × V)) (k : Key α) : Option V := Pool.lookup items k

/-- What the loop is given from item `i` on; `fuel` bounds the number of requests. -/
def iterFrom (items : List (Key α × V)) : Nat → Nat → List V
  | 0, _ => []
  | fuel + 1, i => match getItem items (.int i) with
    | some v => v :: iterFrom items fuel (i + 1)
    | none => []

/-- The values the variable of a loop `for x in pool` takes; the keys are distinct, so there are at most as many as items
(`keys_bound`). -/
def iter (items : List (Key α × V)) : List V := iterFrom items (items.length + 1) 0

/-! ## Indirect registers: src/uvm/reg/uvm_reg_indirect.py -/

/-- The data register: its maps (`m_maps`), the table of registers, the front doors given to registers (register, map), the errors;
`inMap`: the registers that are in maps; `raised`: a call has raised `AttributeError`. -/
structure Ind where
  maps : List Nat := []
  tbl : List (Option Nat) := []
  inMap : List (Nat × Nat) := []
  doors : List (Nat × Nat) := []
  errors : Nat := 0
  raised : Bool := false
deriving DecidableEq, Repr

/-- 129-145: `add_frontdoors(map)`.  143: registers have no `set_frontdoor`; 145: `add_reg` puts the register into the map with the front
door (the register is in the block of the map). -/
def addFrontdoors (m : Nat) : List (Option Nat) → Ind → Ind
  | [], s => s
  | none :: t, s => addFrontdoors m t { s with errors := s.errors + 1 }
  | some r :: t, s =>
    if (r, m) ∈ s.inMap then { s with raised := true }
    else addFrontdoors m t { s with doors := s.doors ++ [(r, m)], inMap := s.inMap ++ [(r, m)] }

inductive IOp where
  | configure (tbl : List (Option Nat))
  | addMap (m : Nat)

/-- 114-115: the loop over `m_maps`, whose keys are maps and whose values are 1. -/
def doorLoop : List Nat → Ind → Ind
  | [], s => s
  | m :: ms, s => doorLoop ms (addFrontdoors m s.tbl s)

/-- 79-115: `configure`, without the resource (109); 118-125: `add_map`. -/
def istep (s : Ind) : IOp → Ind
  | .configure tbl =>
    let s := { s with tbl := tbl }
    doorLoop (iter (s.maps.map fun m => (Key.other m, 1))) s
  | .addMap m =>
    let s := { s with maps := if m ∈ s.maps then s.maps else s.maps ++ [m] }
    addFrontdoors m s.tbl s

end Verif.PoolIter
