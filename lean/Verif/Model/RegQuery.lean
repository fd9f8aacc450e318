import Verif.Model.MapSel
import Verif.Model.RegMap
/-!
# Model of the address queries of registers and of the effective bus width of maps

`src/uvm/reg/uvm_reg.py` (R): `get_offset`, `get_addresses`, `get_address`; `src/uvm/reg/uvm_reg_map.py` (M): `get_reg_map_info`,
`get_n_bytes`, and the part of `Xinit_address_mapX` that sets the effective bus width and the addresses of the registers.
The choice of the map is `Verif.MapSel.localReg`, the addresses are `Verif.RegMap.physAddrs`.  Warnings are counted.
-/
namespace Verif.RegQuery
open Verif.MapSel (RMap localReg)
open Verif.RegMap (Map physAddrs)

/-- `UVMRegMapInfo` of a register in a map. -/
structure Info where
  offset : Nat
  unmapped : Bool := false
  initialized : Bool := false
  addr : List Nat := []
deriving DecidableEq, Repr

/-- M 1037-1056: what `get_reg_map_info` comes to: nothing known (an error, and `None`), a fatal error, or the information. -/
inductive Found where
  | missing
  | fatal
  | info (i : Info)
deriving DecidableEq, Repr

def mapInfo : Option Info → Found
  | none => .missing
  | some i => if i.initialized then .info i else .fatal

/-- How a query ends: with a value and so many warnings, with a fatal error, or with an exception (an attribute of `None`). -/
inductive Res (α : Type) where
  | ok (v : α) (warnings : Nat)
  | fatal
  | raised
deriving DecidableEq, Repr

/-- A register as far as queries go: its maps, what each of them knows of it, the default maps of the blocks, and the effective
widths of the maps. -/
structure Ctx where
  maps : List RMap
  info : RMap → Option Info
  dflt : RMap → Option RMap
  width : RMap → Nat

/-- R 557-591: `get_offset`. -/
def getOffset (c : Ctx) (m : Option RMap) : Res Int :=
  match localReg c.dflt c.maps m with
  | (none, w) => .ok (-1) w
  | (some l, w) =>
    match mapInfo (c.info l) with
    | .missing => .raised
    | .fatal => .fatal
    | .info i => if i.unmapped then .ok (-1) (w + 1) else .ok i.offset w

/-- R 619-660: `get_addresses`: the returned number and the list of the caller as it is left. -/
def getAddresses (c : Ctx) (m : Option RMap) (addr : List Nat) : Res (Int × List Nat) :=
  match localReg c.dflt c.maps m with
  | (none, w) => .ok (-1, addr) w
  | (some l, w) =>
    match mapInfo (c.info l) with
    | .missing => .raised
    | .fatal => .fatal
    | .info i => if i.unmapped then .ok (-1, addr) (w + 1) else .ok (c.width l, addr ++ i.addr) w

/-- R 593-617: `get_address`; without addresses the function ends without a value. -/
def getAddress (c : Ctx) (m : Option RMap) : Res (Option Nat) :=
  match getAddresses c m [] with
  | .ok (_, a :: _) w => .ok (some a) w
  | .ok (_, []) w => .ok none w
  | .fatal => .fatal
  | .raised => .raised

/-- M 112-119, 161: what `Xinit_address_mapX` does to the information about a register of `n` bytes in the map `m`. -/
def initInfo (m : Map) (n : Nat) (i : Info) : Info :=
  if i.unmapped then { i with initialized := true }
  else { i with initialized := true, addr := (physAddrs m i.offset 0 n []).1 }

/-- M 99, 119, 177, 220-222: the effective width set by `Xinit_address_mapX` of the map `m`, given offset and bytes of its mapped
registers and then of its mapped memories: the width of the last of them, or the map's own. -/
def systemWidth (m : Map) (items : List (Nat × Nat)) : Nat :=
  let w := items.foldl (fun _ it => (physAddrs m it.1 0 it.2 []).2) 0
  if w = 0 then m.cfg.nBytes else w

/-- M 841-859: `get_n_bytes(hier)` (`true`: `UVM_HIER`); `sys` is `none` before the model is locked (270). -/
def getNBytes (m : Map) (sys : Option Nat) (hier : Bool) : Nat :=
  if hier = false then m.cfg.nBytes else sys.getD 0

end Verif.RegQuery
