import Verif.Model.RegBlock
import Mathlib.Data.Int.Bitwise
/-!
# Model of functional coverage control: `add_coverage`, `has_coverage`, `set_coverage`, `get_coverage`, `build_coverage`, `sample_values`, `XsampleX`

src/uvm/reg/uvm_reg_block.py 691-855, uvm_reg.py 2178-2423, uvm_mem.py 1609-1720.  The tree of blocks, registers and
memories is the one of `Verif.RegBlock`.  A set of coverage models is the Python integer whose bits are the models
(`UVM_CVR_ALL` is −1); `&` and `|` are Mathlib's `Int.land` and `Int.lor`.  Simplified: `m_cover_on` of a register
starts as `False`, here 0; the resource found by `read_by_name` is given, see `Verif.Model.Resource` for the search.
-/
namespace Verif.Coverage
open Verif.RegBlock (State)

/-- What has coverage: a block, a register or a memory (an object identity each). -/
inductive Node where
  | blk (b : Nat)
  | reg (r : Nat)
  | mem (m : Nat)
deriving DecidableEq

/-- uvm_reg_block.py 79-80, uvm_reg.py 96-97, uvm_mem.py 119-124: `has_cover` and `cover_on` of every node. -/
structure Cov where
  has : Node → Int
  on : Node → Int

/-- The constructors: what each is given as `has_coverage`; nothing is on. -/
def init (has : Node → Int) : Cov := ⟨has, fun _ => 0⟩

/-- Assignment to one node. -/
def upd (f : Node → Int) (k : Node) (v : Int) : Node → Int := fun x => if x = k then v else f x

/-- uvm_reg_block.py 729, uvm_reg.py 2284, uvm_mem.py 1632: `add_coverage`. -/
def add (c : Cov) (x : Node) (m : Int) : Cov := { c with has := upd c.has x (Int.lor (c.has x) m) }

/-- uvm_reg_block.py 743, uvm_reg.py 2302, uvm_mem.py 1646: `has_coverage`. -/
def has (c : Cov) (x : Node) (m : Int) : Bool := Int.land (c.has x) m == m

/-- uvm_reg_block.py 792-795, uvm_reg.py 2357-2359, uvm_mem.py 1692-1695: `get_coverage`. -/
def get (c : Cov) (x : Node) (m : Int) : Bool := if has c x m then Int.land (c.on x) m == m else false

/-- uvm_reg.py 2332-2337 and uvm_mem.py 1671-1677: `set_coverage` of a register or memory, with what it returns. -/
def setItem (c : Cov) (x : Node) (m : Int) : Cov × Int :=
  if m = 0 then ({ c with on := upd c.on x m }, m)
  else ({ c with on := upd c.on x (Int.land (c.has x) m) }, Int.land (c.has x) m)

/-- uvm_reg_block.py 766-779: `set_coverage` of a block: itself, its registers, its memories, its sub-blocks.  Fuel
as in `Verif.RegBlock`. -/
def setBlock (s : State) (m : Int) : Nat → Cov → Nat → Option Cov
  | 0, _, _ => none
  | n + 1, c, b =>
    let c := { c with on := upd c.on (.blk b) (Int.land (c.has (.blk b)) m) }
    let c := (s.blk b).regs.foldl (fun c r => (setItem c (.reg r) m).1) c
    let c := (s.blk b).mems.foldl (fun c k => (setItem c (.mem k) m).1) c
    (s.blk b).blks.foldlM (fun c d => setBlock s m n c d) c

/-- `set_coverage` of anything, with what it returns (uvm_reg_block.py 779 returns `cover_on`). -/
def set (s : State) (n : Nat) (c : Cov) (x : Node) (m : Int) : Option (Cov × Int) :=
  match x with
  | .blk b => (setBlock s m n c b).map fun c => (c, c.on (.blk b))
  | x => some (setItem c x m)

/-- uvm_reg_block.py 706-712, uvm_reg.py 2258-2263, uvm_mem.py 1610-1615: `build_coverage`.  `found` is what
`read_by_name` appends to the list; without it `cov_arr[0]` raises, here `none`. -/
def build (found : Option Int) (models : Int) : Option Int := found.map fun b => Int.land b models

/-- uvm_reg_block.py 838-845: `sample_values` of a block: the registers whose `sample_values` is called, in order. -/
def sampleRegs (s : State) : Nat → Nat → Option (List Nat)
  | 0, _ => none
  | n + 1, b => do
    let subs ← (s.blk b).blks.mapM (sampleRegs s n)
    return (s.blk b).regs ++ subs.flatten

/-- uvm_reg_block.py 838-845: the blocks whose `sample_values` is called, in order (itself first). -/
def sampleBlks (s : State) : Nat → Nat → Option (List Nat)
  | 0, _ => none
  | n + 1, b => do
    let subs ← (s.blk b).blks.mapM (sampleBlks s n)
    return b :: subs.flatten

/-- uvm_reg_block.py 851-855: `XsampleX`: the blocks whose `sample` is called.  The branch for the parent is `pass`. -/
def xsample (s : State) (b : Nat) : List Nat :=
  match (s.blk b).parent with
  | some _ => [b]
  | none => [b]

/-- uvm_reg.py 1509-1517 and 1711-1723, uvm_mem.py 1010-1018: the end of a front-door access: the blocks whose
`sample` is called for a register of block `b`.  `auto`: `get_auto_predict`; `ok`: the status is not `UVM_NOT_OK`. -/
def accessSamples (s : State) (auto ok : Bool) (b : Nat) : List Nat :=
  if auto then (if ok then xsample s b else []) else []

/-- Calls that build the tree, and calls that control coverage. -/
inductive Op where
  | tree (op : RegBlock.Op)
  | add (x : Node) (m : Int)
  | set (x : Node) (m : Int)

/-- One call; `none` is fuel exhausted. -/
def step (n : Nat) (t : State × Cov) : Op → Option (State × Cov)
  | .tree op => some (RegBlock.step t.1 op, t.2)
  | .add x m => some (t.1, add t.2 x m)
  | .set x m => (set t.1 n t.2 x m).map fun r => (t.1, r.1)

def run (n : Nat) (t : State × Cov) (ops : List Op) : Option (State × Cov) := ops.foldlM (step n) t

end Verif.Coverage
