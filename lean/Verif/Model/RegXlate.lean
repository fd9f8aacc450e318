import Verif.Model.RegAccess
/-!
# Model of register translation sequences and of the read-only / write-only callbacks

`UVMRegSequence` (src/uvm/reg/uvm_reg_sequence.py 137-204) and `UVMRegReadOnlyCbs`, `UVMRegWriteOnlyCbs`
(src/uvm/reg/uvm_reg_cbs.py 403-563).  The bus access itself (`do_bus_write`, `do_bus_read`) is modelled in
`Verif.Model.RegMap`; here it is what happens between `begin` and `finish`.  Several tasks may call `do_reg_item` of one
sequence ("Execution of register items available only via direct calls to 'do_reg_item'", 158).
-/
namespace Verif.RegXlate

/-- 134-135 and 40-41: `parent_select` (true is LOCAL), `upstream_parent`; `rw.parent` of every item; what the bus access
of an item found as its parent. -/
structure State where
  loc : Bool
  upstream : Option Nat
  parent : Nat → Option Nat
  bus : List (Nat × Option Nat)

/-- Assignment to one key. -/
def upd {α} (f : Nat → α) (k : Nat) (v : α) : Nat → α := fun x => if x = k then v else f x

/-- What a task does with an item of a sequence. -/
inductive Op where
  | begin (i : Nat)     -- up to the bus access
  | finish (i : Nat)    -- after it

/-- 194-201: the item's parent is remembered and replaced by the sequence `me`; then the bus access starts. -/
def begin (me : Nat) (s : State) (i : Nat) : State :=
  let s := if s.loc then { s with upstream := s.parent i, parent := upd s.parent i (some me) } else s
  { s with bus := s.bus ++ [(i, s.parent i)] }

/-- 203-204. -/
def finish (s : State) (i : Nat) : State :=
  if s.loc then { s with parent := upd s.parent i s.upstream } else s

def step (me : Nat) (s : State) : Op → State
  | .begin i => begin me s i
  | .finish i => finish s i

def run (me : Nat) (s : State) (ops : List Op) : State := ops.foldl (step me) s

/-- 164-170: where the loop of `body` is. -/
inductive Pc where
  | peeking | doing (i : Nat) | getting

/-- The items the upstream sequencer holds for the driver, the loop, and the items translated. -/
structure Body where
  q : List Nat
  pc : Pc
  log : List Nat

inductive BodyOp where
  | arrive (i : Nat)    -- the upstream sequencer has a new item
  | go                  -- the loop goes on; if it cannot, nothing happens

/-- (With an upstream sequencer; without one there is a warning, 154-160, and 166 raises.)  166-168: `peek` waits for an item and leaves it, `do_reg_item` translates it, `get` removes the first item. -/
def bodyStep (s : Body) : BodyOp → Body
  | .arrive i => { s with q := s.q ++ [i] }
  | .go =>
    match s.pc with
    | .peeking => match s.q with
      | [] => s
      | i :: _ => { s with pc := .doing i }
    | .doing i => { s with pc := .getting, log := s.log ++ [i] }
    | .getting => match s.q with
      | [] => s
      | _ :: q => { s with pc := .peeking, q := q }

def bodyRun (s : Body) (ops : List BodyOp) : Body := ops.foldl bodyStep s

open Verif.RegAccess in
/-- uvm_reg_cbs.py 403-453: `UVMRegReadOnlyCbs.add(rg)`: the callback is added to the register and to its fields.  Its
`pre_write` is the inherited one (53-100), which does nothing: 408-430 are comments. -/
def addReadOnly (h : Hooks) : Hooks :=
  { h with fieldCbs := fun i => h.fieldCbs i ++ [fun x => x], regCbs := h.regCbs ++ [fun x => x] }

open Verif.RegAccess in
/-- uvm_reg_cbs.py 488-538: the same for `UVMRegWriteOnlyCbs` and `pre_read` (146-193; 494-516 are comments). -/
def addWriteOnly (h : Hooks) : Hooks :=
  { h with fieldCbs := fun i => h.fieldCbs i ++ [fun x => x], regCbs := h.regCbs ++ [fun x => x] }

end Verif.RegXlate
