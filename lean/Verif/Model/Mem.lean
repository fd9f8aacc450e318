import Verif.Model.RegMap
/-!
# Model of memory accesses: `UVMMem.write`, `read`, `burst_write`, `burst_read` (src/uvm/reg/uvm_mem.py)

The bus behind the map is that of `Verif.Model.RegMap` (`do_bus_write`, `do_bus_read`); back doors and user front doors are
arbitrary functions on the state of the device and the item.  Which map serves an access (`get_local_map`) is part of the
setting.  Not modelled: messages (the verbosity is below `UVM_HIGH`), the status `UVM_HAS_X`, `extension`, `prior`, `parent`.  The bus model
knows reads and writes only: `rw.kind` of bursts is `UVM_BURST_READ`/`UVM_BURST_WRITE` in the code.  `none` is a raised exception.
-/
namespace Verif.Mem
open Verif.RegMap

/-- `UVM_FRONTDOOR`, `UVM_BACKDOOR`, `UVM_DEFAULT_PATH`. -/
inductive Path where
  | front | back | dflt
deriving DecidableEq, Repr

/-- The parts of `UVMRegItem` that matter: `ok` is `status == UVM_IS_OK`. -/
structure Item where
  offset : Nat
  value : List Nat
  ok : Bool := true
  path : Path
deriving DecidableEq, Repr

/-- A back door or a user front door, for one direction. -/
abbrev Door (σ : Type) := σ → Item → σ × Item

/-- The local map of the access and what it knows about the memory: addresses of word 0 and stride (`memInfo`), bus width in bytes. -/
structure Local (σ : Type) where
  info : List Nat × Nat
  w : Nat
  unmapped : Bool := false
  /-- The user front door: write and read. -/
  fd : Option (Door σ × Door σ) := none

structure Env (σ : Type) where
  size : Nat
  nBits : Nat
  /-- `get_access` on the back-door map (401-435) is the access the memory was made with. -/
  ro : Bool := false
  /-- `m_parent.get_default_path()` is the back door. -/
  dfltBack : Bool := false
  /-- `get_local_map(rw.map)`; none if there is none. -/
  loc : Option (Local σ)
  /-- `rw.map` was given. -/
  mapGiven : Bool := false
  bus : Bus σ
  order : Order := id
  /-- `get_backdoor()`: write and read. -/
  user : Option (Door σ × Door σ) := none
  /-- The HDL back door (1417-1515), if there is a path of the default kind. -/
  hdl : Option (Door σ × Door σ) := none

/-- The errors reported. -/
inductive Err where
  | offset | noMap | unmapped | narrow | burst | noHdl
deriving DecidableEq, Repr

/-- What `Xcheck_accessX` leaves: its result, the item, the map information handed back, the errors. -/
structure Checked (σ : Type) where
  good : Bool
  item : Item
  info : Option (Local σ)
  errs : List Err

/-- 913-923: the path taken. -/
def resolve {σ} (e : Env σ) (p : Path) : Path :=
  let p := match p with
    | .dflt => if e.dfltBack then .back else .front
    | p => p
  if p = .back ∧ e.user.isNone ∧ e.hdl.isNone then .front else p

/-- 903-964: `Xcheck_accessX`. -/
def check {σ} (e : Env σ) (it : Item) : Option (Checked σ) :=
  if e.size ≤ it.offset then some ⟨false, { it with ok := false }, none, [.offset]⟩           -- 906-911
  else
    let it := { it with path := resolve e it.path }
    if it.path = .back then some ⟨true, it, none, []⟩
    else match e.loc with
      | none => if e.mapGiven then some ⟨false, { it with ok := false }, none, [.noMap]⟩ else none  -- 928-933
      | some l =>
        if l.fd.isNone then
          if l.unmapped then some ⟨false, { it with ok := false }, some l, [.unmapped]⟩           -- 940-945
          else if 1 < it.value.length ∧ l.w * 8 < e.nBits then some ⟨false, { it with ok := false }, some l, [.narrow]⟩
          else if 1 < it.value.length ∧ e.size < it.offset + it.value.length then some ⟨false, it, some l, [.burst]⟩
          else some ⟨true, it, some l, []⟩
        else some ⟨true, it, some l, []⟩

/-- The overridable method and the callbacks at one point of an access. -/
structure Hooks where
  mem : Item → Item := fun x => x
  cbs : List (Item → Item) := []

def Hooks.all (h : Hooks) (it : Item) : Item := h.cbs.foldl (fun x f => f x) (h.mem it)

structure Out (σ : Type) where
  dev : σ
  item : Item
  errs : List Err
  /-- The offsets passed to `sample` of the memory. -/
  samples : List Nat

/-- 1012-1015, 1113-1116: which offsets are sampled. -/
def sampled {σ} (l : Local σ) (it : Item) : List Nat :=
  if it.ok then (List.range (it.value.length + 1)).map fun i => l.info.2 * (it.offset + i) else []

/-- 1417-1515 without a path: an error is reported and the access counts as done. -/
def hdlOr {σ} (d : Option (Door σ)) (s : σ) (it : Item) : σ × Item × List Err :=
  match d with
  | some f => let r := f s it; (r.1, r.2, [])
  | none => (s, { it with ok := true }, [.noHdl])

/-- 998-1031: the access itself, after the pre-write hooks. -/
def transferW {σ} (e : Env σ) (info : Option (Local σ)) (s : σ) (it : Item) : Option (σ × Item × List Err × List Nat) :=
  if it.path = .front then
    match info with
    | none => none                                                     -- 999: IndexError
    | some l =>
      let r : σ × Item := match l.fd with
        | some f => f.1 s it
        | none =>
          let w := busWrite e.bus e.order l.w e.nBits (2 ^ l.w - 1) l.info.2 (memAddrs l.info it.offset) it.value (s, it.ok)
          (w.1, { it with ok := w.2 })
      some (r.1, r.2, [], sampled l r.2)
  else if e.ro then some (s, { it with ok := true }, [], [])               -- 1031
  else match e.user with
    | some d => let r := d.1 s it; some (r.1, r.2, [], [])
    | none => let r := hdlOr (e.hdl.map (·.1)) s it; some (r.1, r.2.1, r.2.2, [])

/-- 968-1067: `do_write`.  The result of the check is compared with `False` but is 0 or 1: it is never taken for a failure (975). -/
def doWrite {σ} (e : Env σ) (pre post : Hooks) (s : σ) (it : Item) : Option (Out σ) := do
  let c ← check e it
  let it := pre.all { c.item with ok := true }                             -- 980-989
  if it.ok = false then return ⟨s, it, c.errs, []⟩                          -- 991-993
  else
    let r ← transferW e c.info s { it with ok := false }                  -- 995
    return ⟨r.1, post.all r.2.1, c.errs ++ r.2.2.1, r.2.2.2⟩

/-- 1099-1126. -/
def transferR {σ} (e : Env σ) (info : Option (Local σ)) (s : σ) (it : Item) : Option (σ × Item × List Err × List Nat) :=
  if it.path = .front then
    match info with
    | none => none
    | some l =>
      let r : σ × Item := match l.fd with
        | some f => f.2 s it
        | none =>
          let w := busRead e.bus e.order l.w e.nBits (2 ^ l.w - 1) l.info.2 (memAddrs l.info it.offset) it.value.length (s, it.ok)
          (w.1, { it with value := w.2.1, ok := w.2.2 })
      some (r.1, r.2, [], sampled l r.2)
  else match e.user with
    | some d => let r := d.2 s it; some (r.1, r.2, [], [])
    | none => let r := hdlOr (e.hdl.map (·.2)) s it; some (r.1, r.2.1, r.2.2, [])

/-- 1071-1165: `do_read`.  The pre-read callbacks are called without `await` (1089): none of them runs. -/
def doRead {σ} (e : Env σ) (pre post : Hooks) (s : σ) (it : Item) : Option (Out σ) := do
  let c ← check e it
  let it := pre.mem { c.item with ok := true }
  if it.ok = false then return ⟨s, it, c.errs, []⟩
  else
    let r ← transferR e c.info s { it with ok := false }
    return ⟨r.1, post.all r.2.1, c.errs ++ r.2.2.1, r.2.2.2⟩

/-- 624-644. -/
def write {σ} (e : Env σ) (pre post : Hooks) (s : σ) (offset v : Nat) (p : Path) : Option (Out σ) :=
  doWrite e pre post s { offset := offset, value := [v], path := p }

/-- 668-689: the value handed back is `value[0]` (IndexError if a hook left no value). -/
def read {σ} (e : Env σ) (pre post : Hooks) (s : σ) (offset : Nat) (p : Path) : Option (Out σ × Nat) := do
  let o ← doRead e pre post s { offset := offset, value := [0], path := p }
  let v ← o.item.value.head?
  return (o, v)

/-- 715-733. -/
def burstWrite {σ} (e : Env σ) (pre post : Hooks) (s : σ) (offset : Nat) (vs : List Nat) (p : Path) : Option (Out σ) :=
  doWrite e pre post s { offset := offset, value := vs, path := p }

/-- 759-780: `arg` is the list given for the values, which must be empty (uvm_globals.py 442-456) and becomes
`rw.value` itself (768); the values handed back are those in `rw.value` (779-780).  Hooks and doors that set values are taken to assign a
new list (if they extend the old one, the loop 779-780 appends it to itself for ever). -/
def burstRead {σ} (e : Env σ) (pre post : Hooks) (s : σ) (offset : Nat) (arg : List Nat) (p : Path) : Option (Out σ × List Nat) :=
  if arg ≠ [] then none
  else do
    let o ← doRead e pre post s { offset := offset, value := arg, path := p }
    return (o, o.item.value)

end Verif.Mem
