import Verif.Model.Reg
/-!
# Model of `UVMRegMap` (src/uvm/reg/uvm_reg_map.py): addresses, bus accesses, address map

A map together with its chain of parent maps is a value of type `Map`.  Addresses, offsets and sizes are natural
numbers.  Divisions that Python does in floating point and truncates (1125, 1168, 192) are taken as exact integer
divisions.  Not modelled: sequencer and adapter plumbing (the bus is an arbitrary state machine `Bus`; see `Verif.Model.RegAdapter`), user front doors,
the branch for `UVM_FIELD` elements (no code in the repository creates such an access).
-/
namespace Verif.RegMap

/-- `uvm_endianness_e`. -/
inductive Endian where
  | none | little | big | littleFifo | bigFifo
deriving DecidableEq, Repr

/-- What `configure` (286-320) stores, apart from the base address. -/
structure Cfg where
  nBytes : Nat
  byteAddr : Bool
  endian : Endian
deriving DecidableEq, Repr

/-- A map: a root map with its base address, or a submap with its offset in its parent. -/
inductive Map where
  | root (c : Cfg) (base : Nat)
  | sub (c : Cfg) (offset : Nat) (parent : Map)
deriving DecidableEq, Repr

def Map.cfg : Map → Cfg
  | .root c _ => c
  | .sub c _ _ => c

/-- 1111-1113: the addressing unit. -/
def mult (c : Cfg) : Nat := if c.byteAddr then c.nBytes else 1

/-- 1125: number of bus words for `n` bytes. -/
def words (n w : Nat) : Nat := (n - 1) / w + 1

/-- The little-endian / FIFO loops 1131-1132, 1138-1139 and 1141-1142. -/
def countUp (base m : Nat) (n : Nat) : List Nat := (List.range n).map fun i => base + i * m

/-- The big-endian loop 1134-1136: `n` is decremented before each use. -/
def countDown (base m : Nat) : Nat → List Nat
  | 0 => []
  | n + 1 => (base + n * m) :: countDown base m n

/-- 1108-1147: `local_addr`. -/
def localAddrs (c : Cfg) (base memOff n : Nat) : List Nat :=
  if n ≤ c.nBytes then [base + memOff * mult c]
  else
    let k := words n c.nBytes
    let b := base + memOff * (k * mult c)
    match c.endian with
    | .little => countUp b (mult c) k
    | .big => countDown b (mult c) k
    | .littleFifo => List.replicate k b
    | .bigFifo => List.replicate k b
    | .none => List.replicate k 0

/-- 1165-1168: words of the parent per word of this map. -/
def ratio (w up : Nat) : Nat := if w < up then 1 else (w - 1) / up + 1

/-- 1077-1183: `get_physical_addresses(base_addr, mem_offset, n_bytes, addr)`; `addr` is the caller's list, which is returned
as it is left.  The returned number is the bus width.  In the loop 1171-1178 the same list `sys_addr` is passed to every call. -/
def physAddrs : Map → (base memOff n : Nat) → (addr : List Nat) → List Nat × Nat
  | .root c b, base, memOff, n, addr =>
    if n = 0 then (addr, 0)
    else ((localAddrs c base memOff n).map (· + b), c.nBytes)
  | .sub c off parent, base, memOff, n, addr =>
    if n = 0 then (addr, 0)
    else
      let k := ratio c.nBytes parent.cfg.nBytes
      let r := (localAddrs c base memOff n).foldl (fun (s : List Nat × List Nat × Nat) a =>
        let q := physAddrs parent (off + a * k) 0 c.nBytes s.2.1
        (s.1 ++ q.1, q.1, q.2)) (addr, [], 0)
      (r.1, if r.2.2 < c.nBytes then r.2.2 else c.nBytes)

/-- 817-838: `get_base_addr(UVM_HIER)`. -/
def baseAddr : Map → Nat
  | .root _ b => b
  | .sub _ off p => off + baseAddr p

/-- 164-216: the addresses of word 0 of a memory of `size` words of `n` bytes at offset `off`, and its stride.
`none`: the division by `size - 1` raises `ZeroDivisionError`, or there are no addresses to look at. -/
def memInfo (m : Map) (off size n : Nat) : Option (List Nat × Nat) :=
  let a := (physAddrs m off 0 n []).1
  match a, (physAddrs m off (size - 1) n []).1 with
  | lo :: _, hi :: _ => if size - 1 = 0 then none else some (a, (hi - lo) / (size - 1))
  | _, _ => none

/-! ## Bus accesses -/

inductive Dir where
  | read | write
deriving DecidableEq, Repr

/-- `UVMRegBusOp`. -/
structure BusOp where
  kind : Dir
  addr : Nat
  data : Nat
  nBits : Int
  byteEn : Nat
deriving DecidableEq, Repr

/-- The bus behind adapter and sequencer: performs an operation and gives back data and status (`true` = OK). -/
abbrev Bus (σ : Type) := σ → BusOp → σ × Nat × Bool

/-- 1379-1404 / 1529-1553: the list of accesses.  For a write the data are cut from the value; for a read `data` carries the
byte position.  `i` counts from `i0`. -/
def mkAccesses (d : Dir) (w : Nat) (value : Nat) (nBits : Int) (byteEn : Nat) : Nat → List Nat → List BusOp
  | _, [] => []
  | i, a :: as =>
    let cur := i * w
    let nb := nBits - i * w * 8
    { kind := d, addr := a,
      data := match d with
        | .write => (value >>> (cur * 8)) &&& (2 ^ (w * 8) - 1)
        | .read => cur
      nBits := if nb > (w * 8 : Nat) then (w * 8 : Nat) else nb
      byteEn := byteEn } :: mkAccesses d w value nBits byteEn (i + 1) as

/-- 1411-1458: perform the accesses; stops at the first that is not OK.  The flag is `rw.status` (`true` if OK),
initially the status the item came with. -/
def runWrites {σ} (bus : Bus σ) : List BusOp → σ × Bool → σ × Bool
  | [], s => s
  | op :: ops, (s, _) =>
    let (s', _, ok) := bus s op
    if ok = false then (s', false) else runWrites bus ops (s', true)

/-- 1560-1605: perform the reads, or-ing the data in at the byte position. -/
def runReads {σ} (bus : Bus σ) (w : Nat) : List BusOp → σ × Nat × Bool → σ × Nat × Bool
  | [], s => s
  | op :: ops, (s, v, _) =>
    let pos := op.data
    let (s', d, ok) := bus s { op with data := 0 }
    let data := d &&& (2 ^ (w * 8) - 1)
    if ok = false then (s', v, false) else runReads bus w ops (s', v ||| (data <<< (pos * 8)), true)

/-- The transaction order policy 1407-1408: reorders the accesses. -/
abbrev Order := List BusOp → List BusOp

/-- 1317-1461: `do_bus_write` of the values of a register (one value) or a memory burst.  `addrs` are the addresses of the
first word, `stride` the distance of memory words. -/
def busWrite {σ} (bus : Bus σ) (order : Order) (w : Nat) (nBits : Int) (be : Nat) (stride : Nat) :
    List Nat → List Nat → σ × Bool → σ × Bool
  | _, [], s => s
  | addrs, v :: vs, s =>
    busWrite bus order w nBits be stride (addrs.map (· + stride)) vs
      (runWrites bus (order (mkAccesses .write w v nBits be 0 addrs)) s)

/-- 1464-1611: `do_bus_read`, for `cnt` values. -/
def busRead {σ} (bus : Bus σ) (order : Order) (w : Nat) (nBits : Int) (be : Nat) (stride : Nat) :
    List Nat → Nat → σ × Bool → σ × List Nat × Bool
  | _, 0, (s, ok) => (s, [], ok)
  | addrs, cnt + 1, (s, ok) =>
    let (s1, v, ok1) := runReads bus w (order (mkAccesses .read w 0 nBits be 0 addrs)) (s, 0, ok)
    let (s2, vs, ok2) := busRead bus order w nBits be stride (addrs.map (· + stride)) cnt (s1, ok1)
    (s2, v :: vs, ok2)

/-- 1344-1346 and 1493-1495: the addresses of word `offset` of a memory. -/
def memAddrs (info : List Nat × Nat) (offset : Nat) : List Nat := info.1.map (· + info.2 * offset)

/-! ## The table of registers by address -/

/-- The two dictionaries of the root map, and the warnings given so far (new register, register found there, address).
Registers are numbers.  Warnings about memories are not modelled. -/
structure Table where
  byOffset : Nat → Option Nat := fun _ => none
  byOffsetWO : Nat → Option Nat := fun _ => none
  warnings : List (Nat × Nat × Nat) := []

def setAt (f : Nat → Option Nat) (a : Nat) (v : Option Nat) : Nat → Option Nat := fun b => if b = a then v else f b

/-- 122-148 (and 695-720): enter register `rg` at address `a`.  `acc r` is `r.Xget_fields_accessX(self)`. -/
def place (acc : Nat → RegField.Acc) (rg : Nat) (t : Table) (a : Nat) : Table :=
  match t.byOffset a with
  | some rg2 =>
    if acc rg = .RO ∧ acc rg2 = .WO then
      { t with byOffset := setAt t.byOffset a (some rg), byOffsetWO := setAt t.byOffsetWO a (some rg2) }
    else if acc rg = .WO ∧ acc rg2 = .RO then
      { t with byOffsetWO := setAt t.byOffsetWO a (some rg) }
    else { t with warnings := t.warnings ++ [(rg, rg2, a)] }
  | none => { t with byOffset := setAt t.byOffset a (some rg) }

/-- One register of some map: how that map sees the accesses of registers, the register, its physical addresses
(112-161; unmapped registers are left out). -/
structure Entry where
  acc : Nat → RegField.Acc
  rg : Nat
  addrs : List Nat

/-- 98-161: `Xinit_address_mapX` of the root map, given the registers in the order in which they are visited (those of submaps first). -/
def initTable (es : List Entry) : Table :=
  es.foldl (fun t e => e.addrs.foldl (place e.acc e.rg) t) {}

/-- 1186-1218: `get_reg_by_offset`, on a locked block. -/
def getRegByOffset (t : Table) (offset : Nat) (read : Bool) : Option Nat :=
  if read = false ∧ (t.byOffsetWO offset).isSome then t.byOffsetWO offset
  else t.byOffset offset

/-- The Python values used as flags for `unmapped`; `is` tells `0` and `False` apart. -/
inductive Flag where
  | int0 | int1 | false_ | true_
deriving DecidableEq, Repr

def Flag.truthy : Flag → Bool
  | .int0 | .false_ => false
  | .int1 | .true_ => true

/-- The part of `UVMRegMapInfo` used by `m_set_reg_offset`. -/
structure Info where
  unmapped : Flag := .int0
  addr : List Nat := []
deriving DecidableEq, Repr

/-- 673-685: forget register `rg` at one address; `none` is a `KeyError`. -/
def forget (rg : Nat) (t : Table) (a : Nat) : Option Table :=
  match t.byOffsetWO a with
  | none => if (t.byOffset a).isSome then some { t with byOffset := setAt t.byOffset a none } else none
  | some w =>
    if t.byOffset a = some rg then
      some { t with byOffset := setAt t.byOffset a (some w), byOffsetWO := setAt t.byOffsetWO a none }
    else some { t with byOffsetWO := setAt t.byOffsetWO a none }

/-- 645-738: `m_set_reg_offset` for a register mapped in the map, on a locked block; `addrs` are the physical addresses of the
new offset.  `none`: `KeyError`. -/
def setRegOffset (acc : Nat → RegField.Acc) (rg : Nat) (info : Info) (unmapped : Flag) (addrs : List Nat) (t : Table) :
    Option (Table × Info) := do
  let t ← if info.unmapped = .false_ then info.addr.foldlM (forget rg) t else some t
  let r : Table × List Nat :=
    if unmapped.truthy = false then (addrs.foldl (place acc rg) t, addrs) else (t, info.addr)
  some (r.1, { unmapped := if unmapped = .true_ then .int1 else .int0, addr := r.2 })

end Verif.RegMap
