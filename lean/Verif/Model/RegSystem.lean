import Verif.Model.RegAccess
import Verif.Model.RegMap
import Verif.Spec.RegAccess
/-!
# Registers of a block accessed through one map: `UVMReg.write`, `read`, `update`, `mirror` down to the bus

Puts the register accesses of `Verif.Model.RegAccess` (uvm_reg.py) on top of the bus accesses of `Verif.Model.RegMap`
(uvm_reg_map.py): `rw.local_map.do_write(rw)` / `do_read(rw)` (uvm_reg.py 1505, 1707), `do_write` 1614-1652 and `do_read` 1655-1693
of the map, `Xget_bus_infoX` 1720-1727 and `do_bus_write` / `do_bus_read`.  Accesses run one after the other (the bus is
shared through one sequencer; concurrent accesses are in `Verif.Model.RegAtomic`).
-/
namespace Verif.RegSystem
open Verif.Reg Verif.RegField Verif.RegAccess Verif.RegMap

/-- What belongs to one register and does not change: the settings of its map, the rights, the user's hooks around writes and
reads, and the addresses of its words (`map_info.addr`, 1726). -/
structure Port where
  cfg : RegAccess.Cfg
  dflt : Rights := .RW
  rt : Rights := .RW
  preW : Hooks := {}
  postW : Hooks := {}
  preR : Hooks := {}
  postR : Hooks := {}
  addrs : List Nat

/-- uvm_reg_map.py 1614-1693 with the register case of `Xget_bus_infoX` (1720-1727): the device a register sees behind its map.
The size is that of the register (1727), one value (`rw.value` of a register item), the status starts as OK. -/
def regDev {σ} (bus : Bus σ) (order : Order) (w : Nat) (nBits : Nat) (addrs : List Nat) : Dev σ where
  wr s v := busWrite bus order w nBits (2 ^ w - 1) 0 addrs [v] (s, true)
  rd s :=
    let r := busRead bus order w nBits (2 ^ w - 1) 0 addrs 1 (s, true)
    (r.1, r.2.1.headD 0, r.2.2)

/-- What the caller of an operation sees. -/
inductive Out where
  | done
  | wrote (ok : Bool)
  | got (value : Nat) (ok err : Bool)
  | updated (status : List Bool)
  | mirrored (status : List Bool) (mismatch : Bool)
deriving DecidableEq, Repr

/-- One operation on one register; `none`: exception.  `set`, `setField`: `UVMReg.set` (uvm_reg.py 640-667) and
`UVMRegField.set`; the rest: uvm_reg.py 852-1146. -/
def access {σ} (p : Port) (d : Dev σ) (r : Reg) (s : σ) : RegAccess.Op → Option (Reg × σ × Out)
  | .set v => some (Reg.set r v, s, .done)
  | .setField i v => some (Reg.step r (.fieldOp i (.set v)), s, .done)
  | .write v => (write p.cfg p.dflt d p.preW p.postW r s v).map fun o => (o.reg, o.dev, .wrote o.ok)
  | .read => (read p.cfg d p.preR p.postR r s).map fun o => (o.reg, o.dev, .got o.value o.ok o.err)
  | .update => (update p.cfg p.dflt d p.preW p.postW r s).map fun o => (o.reg, o.dev, .updated o.status)
  | .mirror b => (mirror p.cfg d p.preR p.postR b p.rt r s).map fun o => (o.reg, o.dev, .mirrored o.status o.mismatch)

/-- The registers of a block and what is behind the bus. -/
structure State (n : Nat) (σ : Type) where
  regs : Fin n → Reg
  dev : σ

/-- One operation on register `op.1` of the block; `devs i r` is what register `i` accesses when its model is `r`
(the number of bits of the access is taken from the register at that time). -/
def step {n : Nat} {σ} (ports : Fin n → Port) (devs : Fin n → Reg → Dev σ) (st : State n σ) (op : Fin n × RegAccess.Op) :
    Option (State n σ × Out) :=
  (access (ports op.1) (devs op.1 (st.regs op.1)) (st.regs op.1) st.dev op.2).map fun q =>
    (⟨fun j => if j = op.1 then q.1 else st.regs j, q.2.1⟩, q.2.2)

/-- A history of operations on the registers of the block, with what their callers saw; it ends at an exception. -/
def run {n : Nat} {σ} (ports : Fin n → Port) (devs : Fin n → Reg → Dev σ) : State n σ → List (Fin n × RegAccess.Op) → Option (State n σ × List Out)
  | st, [] => some (st, [])
  | st, op :: ops =>
    match step ports devs st op with
    | none => none
    | some (st', o) => (run ports devs st' ops).map fun q => (q.1, o :: q.2)

/-- The registers on a bus of words of `w` bytes. -/
def onBus {n : Nat} {σ} (bus : Bus σ) (order : Order) (w : Nat) (ports : Fin n → Port) (i : Fin n) (r : Reg) : Dev σ :=
  regDev bus order w r.nBits (ports i).addrs

end Verif.RegSystem
