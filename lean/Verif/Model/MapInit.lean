import Verif.Model.RegMap
/-!
# Model of entering registers and memories into the table of a root map

src/uvm/reg/uvm_reg_map.py 98-216: `Xinit_address_mapX`.  The registers and memories come in the order of the code: those of the
submaps first, of each map the registers before the memories.  The addresses are given (`Verif.RegMap.physAddrs`).
-/
namespace Verif.MapInit
open Verif.RegMap (Table place Entry)

/-- A register with its addresses, or a memory with its lowest and highest address. -/
inductive Item where
  | reg (e : Entry)
  | mem (m lo hi : Nat)

/-- The table with the addresses in the order of insertion (194), the memories (`m_mems_by_offset`), and the warnings about memories
(199-201: memory, register found there, address). -/
structure State where
  table : Table := {}
  keys : List Nat := []
  mems : List (Nat × Nat × Nat) := []
  warns : List (Nat × Option Nat × Nat) := []

/-- 204-206. -/
def overlaps (lo hi : Nat) (r : Nat × Nat × Nat) : Bool :=
  (lo ≤ r.2.2 && hi ≥ r.2.2) || (lo ≤ r.2.1 && hi ≥ r.2.1) || (lo ≥ r.2.1 && hi ≤ r.2.2)

/-- 121-160: one address of a register.  155-160: the message is a tuple, which cannot be printed: `none` is an exception. -/
def enterAddr (acc : Nat → RegField.Acc) (rg : Nat) (s : State) (a : Nat) : Option State :=
  if s.mems.any (fun r => r.2.1 ≤ a && a ≤ r.2.2) then none
  else some { s with table := place acc rg s.table a, keys := if a ∈ s.keys then s.keys else s.keys ++ [a] }

/-- 194-216: a memory.  207: the numbers formatted are Python's functions `min` and `max`, which have no hexadecimal form. -/
def enterMem (s : State) (m lo hi : Nat) : Option State :=
  let hit := s.keys.filter fun a => lo ≤ a && a ≤ hi
  if s.mems.any (overlaps lo hi) then none
  else some { s with warns := s.warns ++ hit.map (fun a => (m, s.table.byOffset a, a)), mems := s.mems ++ [(m, lo, hi)] }

def enter (s : State) : Item → Option State
  | .reg e => e.addrs.foldlM (enterAddr e.acc e.rg) s
  | .mem m lo hi => enterMem s m lo hi

def run (items : List Item) : Option State := items.foldlM enter {}

end Verif.MapInit
