/-!
# Model of `UVMRegBlock` (src/uvm/reg/uvm_reg_block.py): the tree of blocks, enumeration, locking, block-wide operations

Blocks, registers and memories are numbers (object identities).  The pools `regs`, `mems` and `blks` are the lists
of their keys in insertion order (their values are only counters).  Recursion over sub-blocks takes a fuel `n`;
`none` is fuel exhausted (Python's RecursionError when the blocks form a cycle).  Not modelled: maps (see
`Verif.Model.RegMap`), virtual registers, coverage, register files, the resource set by `configure` (121).
-/
namespace Verif.RegBlock

/-- uvm_reg_block.py 67-100. -/
structure Blk where
  name : String
  parent : Option Nat
  regs : List Nat
  mems : List Nat
  blks : List Nat
  locked : Bool

/-- All the blocks, `m_roots`, and of the registers and memories: name, `m_parent` and `m_locked`. -/
structure State where
  blk : Nat → Blk
  next : Nat
  roots : List Nat
  regName : Nat → String
  regParent : Nat → Option Nat
  memParent : Nat → Option Nat
  regLocked : Nat → Bool
  memLocked : Nat → Bool

/-- `regName` gives each register its name. -/
def init (regName : Nat → String) : State :=
  { blk := fun _ => ⟨"", none, [], [], [], false⟩, next := 0, roots := [], regName := regName,
    regParent := fun _ => none, memParent := fun _ => none, regLocked := fun _ => false, memLocked := fun _ => false }

/-- Assignment to one key. -/
def upd {α} (f : Nat → α) (k : Nat) (v : α) : Nat → α := fun x => if x = k then v else f x

/-- uvm_reg_block.py 67-100: a new block; it counts as a root. -/
def new (s : State) (name : String) : State :=
  { s with blk := upd s.blk s.next ⟨name, none, [], [], [], false⟩, next := s.next + 1, roots := s.roots ++ [s.next] }

/-- uvm_reg_block.py 219-232: `add_block`; the flag is false when an error is reported. -/
def addBlock (s : State) (p c : Nat) : State × Bool :=
  if (s.blk p).locked then (s, false)
  else if c ∈ (s.blk p).blks then (s, false)
  else
    let b := s.blk p
    ({ s with blk := upd s.blk p { b with blks := b.blks ++ [c] }, roots := s.roots.filter (· ≠ c) }, true)

/-- uvm_reg_block.py 103-121: `configure`.  `parent` is set before `add_block` may refuse. -/
def configure (s : State) (c : Nat) (p : Option Nat) : State × Bool :=
  let b := s.blk c
  let s := { s with blk := upd s.blk c { b with parent := p } }
  match p with
  | none => (s, true)
  | some p => addBlock s p c

/-- uvm_reg_block.py 251-263: `add_reg`. -/
def addReg (s : State) (p r : Nat) : State × Bool :=
  if (s.blk p).locked then (s, false)
  else if r ∈ (s.blk p).regs then (s, false)
  else
    let b := s.blk p
    ({ s with blk := upd s.blk p { b with regs := b.regs ++ [r] } }, true)

/-- uvm_reg.py 122-152: a register's `configure` with a parent block. -/
def configureReg (s : State) (r p : Nat) : State × Bool := addReg { s with regParent := upd s.regParent r (some p) } p r

/-- uvm_reg_block.py 279-291: `add_mem`. -/
def addMem (s : State) (p m : Nat) : State × Bool :=
  if (s.blk p).locked then (s, false)
  else if m ∈ (s.blk p).mems then (s, false)
  else
    let b := s.blk p
    ({ s with blk := upd s.blk p { b with mems := b.mems ++ [m] } }, true)

/-- uvm_mem.py 159-180: a memory's `configure`. -/
def configureMem (s : State) (m p : Nat) : State × Bool := addMem { s with memParent := upd s.memParent m (some p) } p m

/-- uvm_reg_block.py 313-317: the registers and memories of one block are locked (uvm_reg.py 256-260, uvm_mem.py 210). -/
def lockItems (s : State) (b : Nat) : State :=
  { s with regLocked := fun r => s.regLocked r || (s.blk b).regs.contains r, memLocked := fun m => s.memLocked m || (s.blk b).mems.contains m }

/-- uvm_reg_block.py 294-320: `lock_model` (the address maps, 323-349, are not modelled). -/
def lock : Nat → State → Nat → Option State
  | 0, _, _ => none
  | n + 1, s, b =>
    if (s.blk b).locked then some s
    else
      let x := s.blk b
      let s := { s with blk := upd s.blk b { x with locked := true } }
      x.blks.foldlM (fun s c => lock n s c) (lockItems s b)

/-- `get_blocks` (447-452), `get_registers` (467-485) and `get_memories` (500-521) walk alike: `own` what the block
contributes, `sub` for each sub-block.  Gives the entries appended, in order. -/
def walk {α} (s : State) (own : Nat → List α) : Nat → Nat → Option (List α)
  | 0, _ => none
  | n + 1, b => do
    let subs ← (s.blk b).blks.mapM (walk s own n)
    return own b ++ subs.flatten

/-- uvm_reg_block.py 467-485, `hier`. -/
def getRegisters (s : State) (n b : Nat) : Option (List Nat) := walk s (fun b => (s.blk b).regs) n b

/-- uvm_reg_block.py 500-521, `hier`. -/
def getMemories (s : State) (n b : Nat) : Option (List Nat) := walk s (fun b => (s.blk b).mems) n b

/-- uvm_reg_block.py 447-452, `hier`: each sub-block followed by its own sub-blocks. -/
def getBlocks (s : State) : Nat → Nat → Option (List Nat)
  | 0, _ => none
  | n + 1, b => do
    let subs ← (s.blk b).blks.mapM fun c => (getBlocks s n c).map (c :: ·)
    return subs.flatten

/-- uvm_reg_block.py 889-897: `reset`: the registers whose `reset` is called, in order. -/
def reset (s : State) (n b : Nat) : Option (List Nat) := walk s (fun b => (s.blk b).regs) n b

/-- 920-928: the first element that answers true ends the search; `none` from a sub-block ends it too. -/
def anyM {α} (f : α → Option Bool) : List α → Option Bool
  | [] => some false
  | x :: xs => match f x with
    | none => none
    | some true => some true
    | some false => anyM f xs

/-- uvm_reg_block.py 918-928: `needs_update`; `nu r` is `r.needs_update()`. -/
def needsUpdate (s : State) (nu : Nat → Bool) : Nat → Nat → Option Bool
  | 0, _ => none
  | n + 1, b => if (s.blk b).regs.any nu then some true else anyM (needsUpdate s nu n) (s.blk b).blks

/-- The outcome of an access. -/
inductive Status where
  | ok | notOk | hasX
deriving DecidableEq, Repr

/-- `curr_stat[0] != UVM_IS_OK and curr_stat[0] != UVM_HAS_X` (1010, 1019). -/
def bad (x : Status) : Bool := x != .ok && x != .hasX

/-- uvm_reg_block.py 1002-1021: `mirror`; `st r` is the status the register's mirror gives.  Gives the registers
mirrored, in order, and the status. -/
def mirror (s : State) (st : Nat → Status) : Nat → Nat → Option (List Nat × Status)
  | 0, _ => none
  | n + 1, b =>
    let own := (s.blk b).regs
    let fin := own.foldl (fun acc r => if bad (st r) then st r else acc) Status.ok
    (s.blk b).blks.foldlM (fun q c => (mirror s st n c).map fun r => (q.1 ++ r.1, if bad r.2 then r.2 else q.2)) (own, fin)

/-- What `update` can end with: the status list of the caller, or an exception. -/
inductive UpdRes where
  | status (x : Status) | raised
deriving DecidableEq, Repr

/-- 961-970: the registers of one block: those updated, and the status that stopped it. -/
def updateRegs (nu : Nat → Bool) (st : Nat → Status) : List Nat → List Nat × Option Status
  | [] => ([], none)
  | r :: rs =>
    if nu r then
      if bad (st r) then ([r], some (st r))
      else let q := updateRegs nu st rs; (r :: q.1, q.2)
    else updateRegs nu st rs

/-- uvm_reg_block.py 947-978: `update`.  `needs_update() is False` (952) never holds: it returns 0 or 1.  After the
first sub-block `stat_blk[0]` (976) is an IndexError, so only the first is visited.  Gives the registers updated. -/
def update (s : State) (nu : Nat → Bool) (st : Nat → Status) : Nat → Nat → Option (List Nat × UpdRes)
  | 0, _ => none
  | n + 1, b =>
    match updateRegs nu st (s.blk b).regs with
    | (l, some x) => some (l, .status x)
    | (l, none) =>
      match (s.blk b).blks with
      | [] => some (l, .status .ok)
      | c :: _ => match update s nu st n c with
        | none => none
        | some (l', _) => some (l ++ l', .raised)

/-- uvm_reg_block.py 596-625: `get_reg_by_name`: outer `none` is fuel exhausted, inner `none` is not found. -/
def getRegByName (s : State) (n b : Nat) (name : String) : Option (Option Nat) :=
  match (s.blk b).regs.find? (fun r => s.regName r == name) with
  | some r => some (some r)
  | none => go (s.blk b).blks
where
  /-- 614-621. -/
  go : List Nat → Option (Option Nat)
    | [] => some none
    | c :: cs => match getRegisters s n c with
      | none => none
      | some l => match l.find? (fun r => s.regName r == name) with
        | some r => some (some r)
        | none => go cs

/-- What a user does to build a register model.  `lock n b`: with recursion depth `n`. -/
inductive Op where
  | new (name : String)
  | configure (c : Nat) (p : Option Nat)
  | reg (r p : Nat)
  | mem (m p : Nat)
  | lock (n b : Nat)

def step (s : State) : Op → State
  | .new name => new s name
  | .configure c p => (configure s c p).1
  | .reg r p => (configureReg s r p).1
  | .mem m p => (configureMem s m p).1
  | .lock n b => (lock n s b).getD s

def run (s : State) (ops : List Op) : State := ops.foldl step s

end Verif.RegBlock
