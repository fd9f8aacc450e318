import Verif.Model.Queue
import Verif.Model.Pool
/-!
# Model of copying queues and of copying and printing pools

src/uvm/base/uvm_queue.py (Q), src/uvm/base/uvm_pool.py (P), `copy` and `clone` of src/uvm/base/uvm_object.py.

Queues are objects that refer to Python lists, several queues may refer to the same list.  Queue objects and lists are numbered.
Of a printed pool the model keeps the keys of the rows, in order.  `copy` of a queue is called with another queue (not with `None`).
-/
namespace Verif.Container
open Verif

/-- The lists (`cell`), the list each queue refers to (`Q 48: self.queue`), how many of each there are. -/
structure Heap (α : Type) where
  cell : Nat → List α
  ref : Nat → Nat
  nCells : Nat
  nQueues : Nat

def init {α} : Heap α := ⟨fun _ => [], fun _ => 0, 0, 0⟩

def upd {α} (f : Nat → α) (k : Nat) (v : α) : Nat → α := fun x => if x = k then v else f x

/-- The elements a user sees in the queue `q`. -/
def content {α} (h : Heap α) (q : Nat) : List α := h.cell (h.ref q)

/-- Q 46-48: a new queue has a new, empty list. -/
def new {α} (h : Heap α) : Heap α :=
  { cell := upd h.cell h.nCells [], ref := upd h.ref h.nQueues h.nCells, nCells := h.nCells + 1, nQueues := h.nQueues + 1 }

/-- A call of a method of `Verif.Queue`.  `delete()` (Q 181-182) gives the queue a new list, all other methods change the list itself. -/
def call {α} (h : Heap α) (q : Nat) (o : Queue.Op α) : Heap α × Queue.Out α :=
  let r := Queue.step (content h q) o
  match o with
  | .delete i =>
    if i ≥ (content h q).length ∨ i < -1 then (h, r.2)
    else if i = -1 then ({ h with cell := upd h.cell h.nCells [], ref := upd h.ref q h.nCells, nCells := h.nCells + 1 }, r.2)
    else ({ h with cell := upd h.cell (h.ref q) r.1 }, r.2)
  | _ => ({ h with cell := upd h.cell (h.ref q) r.1 }, r.2)

/-- uvm_object.py 511-539 with Q 249-253: `dst.copy(src)`. -/
def copy {α} (h : Heap α) (dst src : Nat) : Heap α := { h with ref := upd h.ref dst (h.ref src) }

/-- uvm_object.py 282-299 with Q 242-244: `clone`; the clone is the last queue made. -/
def clone {α} (h : Heap α) (src : Nat) : Heap α := copy (new h) h.nQueues src

inductive Op (α : Type) where
  | new
  | call (q : Nat) (o : Queue.Op α)
  | copy (dst src : Nat)
  | clone (src : Nat)

def step {α} (h : Heap α) : Op α → Heap α
  | .new => new h
  | .call q o => (call h q o).1
  | .copy d s => copy h d s
  | .clone s => clone h s

def run {α} (h : Heap α) (l : List (Op α)) : Heap α := l.foldl step h

/-! ## Pools -/

variable {K V : Type} [DecidableEq K]

/-- P 164-165, 282-299 of uvm_object.py: `clone` of a pool: a new pool; pools have no `do_copy`, so copying changes nothing. -/
def cloneP (_ : Pool.State K V) : Pool.State K V := Pool.init
def copyP (dst _src : Pool.State K V) : Pool.State K V := dst

/-- P 167-178: `do_print` of `UVMPool`: the loop over `next()`, from wherever the pointer is.  `n` bounds the number of rounds. -/
def printLoop : Nat → Pool.State K V → Pool.State K V × List (Pool.Out K V)
  | 0, s => (s, [])
  | n + 1, s =>
    if s.ptr < (s.items.length : Int) - 1 then
      let r := Pool.next s
      let t := printLoop n r.1
      (t.1, r.2 :: t.2)
    else (s, [])

/-- The number of rounds is never more than this. -/
def printPool (s : Pool.State K V) : Pool.State K V × List (Pool.Out K V) := printLoop (s.items.length + s.ptr.natAbs + 1) s

/-- P 315-333: `do_print` of `UVMObjectStringPool` starts with `first()`. -/
def printStrPool (s : Pool.State K V) : Pool.State K V × List (Pool.Out K V) :=
  if s.items.length > 0 then
    let r := Pool.first s
    let t := printLoop (s.items.length + s.ptr.natAbs + 1) r.1
    (t.1, r.2 :: t.2)
  else (s, [])

end Verif.Container
