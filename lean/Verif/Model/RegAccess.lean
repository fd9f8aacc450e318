import Verif.Model.Reg
import Verif.Model.SvBits
/-!
# Model of whole register accesses: `UVMReg.write`, `read`, `update`, `mirror` (src/uvm/reg/uvm_reg.py)

The device behind the map (adapter, sequencer, driver, splitting into bus words: see
`Verif.Model.RegMap`) is a parameter.  The access token is modelled in `Verif.Model.RegAtomic`; here
an access runs on its own.  Coverage sampling, messages, user front doors and the HDL back door are not
modelled.  `none` is a raised exception.  Values are natural numbers (callbacks do not produce negative ones).
-/
namespace Verif.RegAccess
open Verif.Reg Verif.RegField Verif.SvBits

/-- `rw.value[0]` and whether `rw.status` is `UVM_IS_OK`. -/
structure Item where
  value : Nat
  ok : Bool
deriving DecidableEq, Repr

/-- Who was called: the overridable method of a field or of the register, or the `j`-th callback of either. -/
inductive Who where
  | fieldHook (i : Nat) | fieldCb (i j : Nat) | regHook | regCb (j : Nat)
deriving DecidableEq, Repr

/-- The user's code called at one point of an access: the overridable methods and the registered callbacks
(what `UVMRegFieldCbIter(field)` and `UVMRegCbIter(reg)` iterate over). -/
structure Hooks where
  field : Nat → Item → Item := fun _ x => x
  fieldCbs : Nat → List (Item → Item) := fun _ => []
  reg : Item → Item := fun x => x
  regCbs : List (Item → Item) := []

/-- The register, the device, and the pre/post hooks of writes and reads. -/
structure Dev (σ : Type) where
  wr : σ → Nat → σ × Bool
  rd : σ → σ × Nat × Bool

/-- How an access finds its map: `Xcheck_accessX` 1280-1330 (`get_local_map` 362-389). -/
inductive Route where
  | front (rights : Rights)   -- through a map with these rights (1328-1330)
  | userBackdoor              -- `UVM_BACKDOOR` with a user-defined back door (1303)
  | noMap                     -- the map given does not contain the register, or the register is unmapped in it (1308-1326)
deriving DecidableEq, Repr

/-- Settings of the map: `auto_predict` of the root map, `check_on_read` of the local map. -/
structure Cfg where
  route : Route
  auto : Bool
  check : Bool
  /-- The field has a registered callback whose class defines no `post_predict` (the base class
  `UVMRegCbs` does not: uvm_reg_cbs.py 238-254 is a comment). -/
  bare : Nat → Bool := fun _ => false

/-- One hook: the item is passed to it and the call is noted. -/
def call (w : Who) (f : Item → Item) (s : Item × List Who) : Item × List Who := (f s.1, s.2 ++ [w])

/-- A list of callbacks, in order; `w j` names the `j`-th. -/
def callAll (w : Nat → Who) (fs : List (Item → Item)) (s : Item × List Who) : Item × List Who :=
  fs.zipIdx.foldl (fun s p => call (w p.2) p.1 s) s

/-- 1424-1437: one field of the `pre_write` loop: the field's part of the value is cut out, shown to the hooks and put back. -/
def preWriteField (h : Hooks) (s : Item × List Who) (p : RF × Nat) : Item × List Who :=
  let msk := (2 ^ p.1.f.size - 1) <<< p.1.lsb
  let value := s.1.value
  let s1 := call (.fieldHook p.2) (h.field p.2) (⟨(value &&& msk) >>> p.1.lsb, s.1.ok⟩, s.2)
  let s2 := callAll (.fieldCb p.2) (h.fieldCbs p.2) s1
  (⟨andNot value msk ||| (s2.1.value <<< p.1.lsb), s2.1.ok⟩, s2.2)

/-- The callbacks the variable `cbs` iterates over after the field loop: those of the last field, and those of the
register only if it has no fields (1398, 1425). -/
def lastCbs (h : Hooks) (n : Nat) : (Nat → Who) × List (Item → Item) :=
  match n with
  | 0 => (.regCb, h.regCbs)
  | n + 1 => (.fieldCb n, h.fieldCbs n)

/-- 1415-1448: all the `pre_write` hooks. -/
def preWrite (h : Hooks) (r : Reg) (v : Nat) : Item × List Who :=
  let s := r.fields.zipIdx.foldl (preWriteField h) (⟨v % 2 ^ r.nBits, true⟩, [])
  let s := call .regHook h.reg s
  callAll (lastCbs h r.fields.length).1 (lastCbs h r.fields.length).2 s

/-- 1519-1544: the `post_write` hooks: `cbs` still iterates over the last field's callbacks; the callbacks of the fields
are called without `await` (1538), so nothing of them runs; the value is restored. -/
def postWrite (h : Hooks) (r : Reg) (it : Item) : Item × List Who :=
  let s := callAll (lastCbs h r.fields.length).1 (lastCbs h r.fields.length).2 (it, [])
  let s := call .regHook h.reg s
  let s := r.fields.zipIdx.foldl
    (fun s p => call (.fieldHook p.2) (h.field p.2) (⟨(it.value >>> p.1.lsb) &&& (2 ^ p.1.f.size - 1), s.1.ok⟩, s.2)) s
  (⟨it.value, s.1.ok⟩, s.2)

/-- The outcome of a write: register and device afterwards, status, and the hooks called (before and after the bus). -/
structure WOut (σ : Type) where
  reg : Reg
  dev : σ
  ok : Bool
  pre : List Who
  post : List Who

/-- The fields whose `do_predict` reaches its callback loop (uvm_reg_field.py 1280, 1299): all but write-only
and inaccessible fields read through the front door (1295-1296). -/
def reachesCbs (k : PKind) (p : Path) (rt : Rights) (x : RF) : Bool :=
  match k, p with
  | .read, .front => match getAccess x.f rt with
    | .WO | .WOC | .WOS | .WO1 | .NOACCESS => false
    | _ => true
  | .direct, _ => false
  | _, _ => true

/-- `do_predict` with all byte enables; `none`: AttributeError, a callback without `post_predict`
(uvm_reg_field.py 1282, 1301). -/
def predict (c : Cfg) (r : Reg) (v : Nat) (k : PKind) (p : Path) (rt : Rights) : Option Reg :=
  if r.fields.zipIdx.any fun q => c.bare q.2 && reachesCbs k p rt q.1 then none
  else (doPredict r v k p rt (-1)).map (·.1)

/-- 1455-1487 with a user back door: `bkdr.read(rw)` and `bkdr.write(rw)` are called without `await`, so neither runs and
`rw.value` still is the value to be written; the mirror takes the predicted value (rights of map None: those of the default map). -/
def backdoorValue (r : Reg) (rt : Rights) (v : Nat) : Nat :=
  r.fields.foldl (fun acc x =>
    acc ||| (xpredict x.f ((v >>> x.lsb) &&& (2 ^ x.f.size - 1)) ((v >>> x.lsb) &&& (2 ^ x.f.size - 1)) rt <<< x.lsb)) 0

/-- 1389-1553: `do_write`. `dflt`: the rights in the default map, used by the back door. -/
def doWrite {σ} (c : Cfg) (dflt : Rights) (d : Dev σ) (pre post : Hooks) (r : Reg) (s : σ) (v : Nat) : Option (WOut σ) :=
  match c.route with
  | .noMap => some ⟨r, s, false, [], []⟩                                  -- 1405-1407
  | .front rt =>
    let p := preWrite pre r v
    if p.1.ok = false then some ⟨r, s, false, p.2, []⟩                     -- 1450-1453
    else do
      let w := d.wr s p.1.value                                        -- 1505
      let r1 ← if c.auto then predict c r p.1.value .write .front rt else some r   -- 1509-1517
      let q := postWrite post r1 ⟨p.1.value, w.2⟩
      return ⟨r1, w.1, q.1.ok, p.2, q.2⟩
  | .userBackdoor =>
    let p := preWrite pre r v
    if p.1.ok = false then some ⟨r, s, false, p.2, []⟩
    else do
      let fv := backdoorValue r dflt p.1.value
      let r1 ← predict c r fv .write .other .backdoor
      let q := postWrite post r1 ⟨fv, true⟩
      return ⟨r1, s, q.1.ok, p.2, q.2⟩

/-- 852-915: `write`: the desired value is set first (898). -/
def write {σ} (c : Cfg) (dflt : Rights) (d : Dev σ) (pre post : Hooks) (r : Reg) (s : σ) (v : Nat) : Option (WOut σ) :=
  doWrite c dflt d pre post (Reg.set r v) s v

/-- The outcome of a read. `err`: `check_on_read` reported a mismatch. -/
structure ROut (σ : Type) where
  reg : Reg
  dev : σ
  ok : Bool
  value : Nat
  err : Bool
  pre : List Who
  post : List Who

/-- 1600-1624: the `pre_read` hooks; the register's callbacks are called without `await` (1623), so they do not run. -/
def preRead (h : Hooks) (r : Reg) : Item × List Who :=
  let s := r.fields.zipIdx.foldl
    (fun s p => callAll (.fieldCb p.2) (h.fieldCbs p.2) (call (.fieldHook p.2) (h.field p.2) s)) (⟨0, true⟩, [])
  call .regHook h.reg s

/-- 1725-1748: the `post_read` hooks (callbacks are ordinary functions here, so they do run); the value read is put back at the end. -/
def postRead (h : Hooks) (r : Reg) (it : Item) : Item × List Who :=
  let s := callAll .regCb h.regCbs (it, [])
  let s := call .regHook h.reg s
  let s := r.fields.zipIdx.foldl
    (fun s p => call (.fieldHook p.2) (h.field p.2) (callAll (.fieldCb p.2) (h.fieldCbs p.2)
      (⟨(it.value >>> p.1.lsb) &&& (2 ^ p.1.f.size - 1), s.1.ok⟩, s.2))) s
  (⟨it.value, s.1.ok⟩, s.2)

/-- 1579-1757: `do_read` (and `XreadX` 1207-1249). With a user back door `bkdr.read(rw)` is not awaited: the value stays what the
hooks left (0 by default), then the back door's write-only fields are masked. -/
def doRead {σ} (c : Cfg) (d : Dev σ) (pre post : Hooks) (r : Reg) (s : σ) : Option (ROut σ) :=
  match c.route with
  | .noMap => some ⟨r, s, false, 0, false, [], []⟩                          -- 1592-1593
  | .front rt =>
    let p := preRead pre r
    if p.1.ok = false then some ⟨r, s, false, p.1.value, false, p.2, []⟩     -- 1626-1628
    else do
      let exp := Reg.get r                                              -- 1694-1695
      let w := d.rd s                                                   -- 1707
      let err := c.auto && c.check && w.2.2 && !(doCheck r rt exp w.2.1)   -- 1711-1715
      let r1 ← if c.auto then predict c r w.2.1 .read .front rt else some r    -- 1722
      let q := postRead post r1 ⟨w.2.1, w.2.2⟩
      return ⟨r1, w.1, q.1.ok, w.2.1, err, p.2, q.2⟩
  | .userBackdoor =>
    let p := preRead pre r
    if p.1.ok = false then some ⟨r, s, false, p.1.value, false, p.2, []⟩
    else do
      let wo := r.fields.foldl (fun m x => match getAccess x.f .backdoor with
        | .WO | .WOC | .WOS | .WO1 => m ||| ((2 ^ x.f.size - 1) <<< x.lsb)
        | _ => m) 0
      let v := andNot p.1.value wo
      let r1 ← predict c r v .read .other .backdoor
      let q := postRead post r1 ⟨v, true⟩
      return ⟨r1, s, q.1.ok, v, false, p.2, q.2⟩

/-- 918-965: `read`. -/
def read {σ} (c : Cfg) (d : Dev σ) (pre post : Hooks) (r : Reg) (s : σ) : Option (ROut σ) := doRead c d pre post r s

/-- The outcome of an update: `status` is what was appended to the caller's list. -/
structure UOut (σ : Type) where
  reg : Reg
  dev : σ
  status : List Bool

/-- 1011-1062: `update`. -/
def update {σ} (c : Cfg) (dflt : Rights) (d : Dev σ) (pre post : Hooks) (r : Reg) (s : σ) : Option (UOut σ) :=
  if needsUpdate r = false then some ⟨r, s, []⟩                              -- 1054-1055
  else (write c dflt d pre post r s (updateValue r)).map fun w => ⟨w.reg, w.dev, [w.ok]⟩

/-- The outcome of a mirror: `mismatch` is the error report of `do_check`. -/
structure MOut (σ : Type) where
  reg : Reg
  dev : σ
  status : List Bool
  mismatch : Bool

/-- 1065-1146: `mirror`; `status == UVM_NOT_OK` (1139) compares a list with a number, so it is never true.
Front door only. -/
def mirror {σ} (c : Cfg) (d : Dev σ) (pre post : Hooks) (check : Bool) (rt : Rights) (r : Reg) (s : σ) : Option (MOut σ) :=
  match c.route with
  | .noMap => some ⟨r, s, [], false⟩                                          -- 1128-1129
  | _ =>
    let exp := getMirrored r                                             -- 1132-1133
    (doRead c d pre post r s).map fun o =>                               -- 1136
      ⟨o.reg, o.dev, [o.ok], check && !(doCheck o.reg rt exp o.value)⟩      -- 1143-1144

end Verif.RegAccess
