/-!
# Model of user-defined back doors

src/uvm/reg/uvm_reg_block.py 1133-1141, src/uvm/reg/uvm_reg.py 1844-1870 and src/uvm/reg/uvm_mem.py 1232-1262
(`get_backdoor`, `set_backdoor`; the texts of the register and of the memory are the same), 801-838 and 859-898 (`poke`,
`peek`); src/uvm/reg/uvm_reg_backdoor.py (`do_pre_read`, `do_post_read`, `do_pre_write`, `do_post_write`, `read`).

Registers and blocks have no `set_backdoor` (it is commented out: uvm_reg.py 2614, uvm_reg_block.py 1736): the attribute of
a block can be assigned only.  Accesses of registers through user back doors are in `Verif.RegAccess`.
-/
namespace Verif.UserDoor

/-! ## Which back door -/

/-- Blocks and elements (registers and memories) are numbered, parents of blocks before their children. -/
structure State where
  parent : Nat → Option Nat        -- block -> parent block
  door : Nat → Option Nat          -- block -> `backdoor`
  home : Nat → Option Nat          -- element -> parent block
  own : Nat → Option Nat           -- element -> `m_backdoor`

def set (f : Nat → Option Nat) (a : Nat) (x : Option Nat) : Nat → Option Nat := fun b => if b = a then x else f b

/-- The loops of uvm_reg_block.py 1136-1140 and uvm_reg.py 1864-1869: `blk.get_backdoor()` for the blocks from `blk` up,
which itself (uvm_reg_block.py 1134) gives its own or climbs.  `n` bounds the height. -/
def climb (s : State) : Nat → Option Nat → Option Nat
  | 0, _ => none
  | _ + 1, none => none
  | n + 1, some b =>
    match (match s.door b with
      | some d => some d
      | none => climb s n (s.parent b)) with
    | some d => some d
    | none => climb s n (s.parent b)

/-- The height of a block is at most its number plus one. -/
def fuel : Option Nat → Nat
  | none => 1
  | some b => b + 2

/-- uvm_reg_block.py 1133-1141. -/
def blockDoor (s : State) (b : Nat) (inherited : Bool) : Option Nat :=
  match s.door b with
  | some d => some d
  | none => if inherited then climb s (fuel (s.parent b)) (s.parent b) else none

/-- uvm_reg.py 1861-1870, uvm_mem.py 1252-1262: what is found is kept in `m_backdoor`. -/
def getDoor (s : State) (e : Nat) (inherited : Bool) : State × Option Nat :=
  match s.own e with
  | some d => (s, some d)
  | none =>
    if inherited then
      match climb s (fuel (s.home e)) (s.home e) with
      | some d => ({ s with own := set s.own e (some d) }, some d)
      | none => (s, none)
    else (s, none)

inductive Op where
  | setElem (e : Nat) (d : Option Nat)        -- uvm_mem.py 1232-1235
  | setBlock (b : Nat) (d : Option Nat)       -- the attribute
  | get (e : Nat) (inherited : Bool)
deriving DecidableEq, Repr

def step (s : State) : Op → State × Option Nat
  | .setElem e d => ({ s with own := set s.own e d }, none)
  | .setBlock b d => ({ s with door := set s.door b d }, none)
  | .get e i => getDoor s e i

/-! ## What a back door does -/

/-- The parts of `UVMRegItem` that matter; `ok` is `status == UVM_IS_OK`, the value of a new item (122). -/
structure Item where
  value : List Nat
  ok : Bool := true
deriving DecidableEq, Repr

/-- A registered `UVMRegCbs`: `enabled` is its callback mode.  `encode` and `decode` change the list they are given. -/
structure Cb where
  enabled : Bool := true
  encode : List Nat → List Nat := id
  decode : List Nat → List Nat := id
  preWrite : Item → Item := id
  postWrite : Item → Item := id
  preRead : Item → Item := id
  postRead : Item → Item := id

/-- A user back door: its methods `pre_write` …, and the queue of its callbacks. -/
structure Door where
  preWrite : Item → Item := id
  postWrite : Item → Item := id
  preRead : Item → Item := id
  postRead : Item → Item := id
  cbs : List Cb := []

/-- `UVMCallbackIter(self)` (no type given): every callback of the queue, enabled or not (uvm_callback.py `get_first`,
`get_next` without `CB`). -/
def decodeAll (cbs : List Cb) (v : List Nat) : List Nat := cbs.foldl (fun v c => c.decode v) v

/-- `uvm_do_obj_callbacks(self, UVMRegCbs, 'post_read', …)`: the enabled callbacks; `post_read` is no coroutine. -/
def postReadAll (cbs : List Cb) (it : Item) : Item := (cbs.filter (·.enabled)).foldl (fun it c => c.postRead it) it

/-- uvm_reg_backdoor.py 62-75.  The callbacks' `pre_read` is a coroutine (uvm_reg_cbs.py 146) that is not awaited: it does
not run. -/
def doPreRead (d : Door) (it : Item) : Item := d.preRead it

/-- 78-98. -/
def doPostRead (d : Door) (it : Item) : Item :=
  let it := { it with value := decodeAll d.cbs it.value }
  d.postRead (postReadAll d.cbs it)

/-- 102-123: `decode` is called, not `encode`; the callbacks' `pre_write` is a coroutine (53) that is not awaited. -/
def doPreWrite (d : Door) (it : Item) : Item :=
  let it := d.preWrite it
  { it with value := decodeAll d.cbs it.value }

/-- 126-137: the callbacks' `post_write` is a coroutine (102) that is not awaited. -/
def doPostWrite (d : Door) (it : Item) : Item := d.postWrite it

/-- A user's `write` as 142-150 ask for: the device holds the words deposited. -/
def write (d : Door) (_dev : List Nat) (it : Item) : List Nat × Item :=
  let it := doPreWrite d it
  (it.value, doPostWrite d it)

/-- 156-176: `read` with a user's `read_func` that fetches the words of the device. -/
def read (d : Door) (dev : List Nat) (it : Item) : Item :=
  let it := doPreRead d it
  doPostRead d { it with value := dev }

/-! ## `poke` and `peek` of memories -/

/-- How a memory can be accessed through the back: a user back door, an HDL path (with what writing and reading do), or not. -/
inductive Way where
  | user (d : Door)
  | hdl (write : List Nat → Item → List Nat × Item) (read : List Nat → Item → Item)
  | none

/-- uvm_mem.py 801-838, for a memory of `w` bits: `bkdr.write(rw)` is a coroutine that is not awaited. -/
def poke (way : Way) (w : Nat) (dev : List Nat) (v : Nat) : List Nat × Bool :=
  match way with
  | .none => (dev, false)
  | .user _ => (dev, (Item.mk [v % 2 ^ w] true).ok)
  | .hdl wr _ => let r := wr dev ⟨[v % 2 ^ w], true⟩; (r.1, r.2.ok)

/-- 859-898: likewise `bkdr.read(rw)`; the value of a new item is `[0]`.  With no way nothing is appended to `value`. -/
def peek (way : Way) (dev : List Nat) : Bool × Option Nat :=
  match way with
  | .none => (false, none)
  | .user _ => let it := Item.mk [0] true; (it.ok, it.value.head?)
  | .hdl _ rd => let it := rd dev ⟨[0], true⟩; (it.ok, it.value.head?)

end Verif.UserDoor
