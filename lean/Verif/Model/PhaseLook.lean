import Verif.Model.Phase
import Verif.Model.PhaseRun
/-!
# Model of looking phases up by name and of waiting for the state of a phase

src/uvm/base/uvm_phase.py: `find_by_name`, `m_find_predecessor_by_name`, `m_find_successor_by_name`, `wait_for_state`.
(`get_adjacent_successor_nodes` is `Verif.PhaseRun.expand` of the successors.)
-/
namespace Verif.PhaseLook

/-- 1058-1070 and 1073-1085 (the same text, with the other dictionary `nb`): `fuel` bounds the depth of the recursion. -/
def findName (s : Phase.State) (nm : Nat → String) (nb : Nat → List Nat) (name : String) (stay : Bool) (orig : Nat) : Nat → Nat → Option Nat
  | 0, _ => none
  | fuel + 1, a =>
    if nm a = name then some a
    else (nb a).findSome? fun p => if Phase.inScope s stay orig p then findName s nm nb name stay orig fuel p else none

/-- 336-343: `find_by_name`. -/
def findByName (s : Phase.State) (nm : Nat → String) (name : String) (stay : Bool) (fuel a : Nat) : Option Nat :=
  if nm a = name then some a
  else match findName s nm (Phase.preds s) name stay a fuel a with
    | some x => some x
    | none => findName s nm (Phase.succs s) name stay a fuel a

/-- 896-917: the comparisons. -/
inductive Cmp where
  | eq | ne | gte | lt | lte | gt
deriving DecidableEq, Repr

/-- 898-915: `state` is a mask for `eq` and `ne`. -/
def holds (op : Cmp) (state : Nat) (st : PhaseRun.St) : Bool :=
  match op with
  | .eq => state &&& st.code != 0
  | .ne => state &&& st.code == 0
  | .gte => decide (st.code ≥ state)
  | .lt => decide (st.code < state)
  | .lte => decide (st.code ≤ state)
  | .gt => decide (st.code > state)

/-- A call of `wait_for_state`. -/
structure Call where
  op : Cmp
  state : Nat
deriving DecidableEq, Repr

/-- A task in `wait_for_state`: waiting for the event, woken by it, or returned. -/
inductive Task where
  | out | waiting (c : Call) | woken (c : Call) | returned
deriving DecidableEq, Repr

/-- One phase and the tasks that wait for it.  `ev` is `m_phase_set_state_event`. -/
structure State where
  st : PhaseRun.St
  ev : Bool
  task : Nat → Task

def init : State := ⟨.dormant, false, fun _ => .out⟩

inductive Op where
  | set (x : PhaseRun.St)       -- 299-309: `set_state`
  | call (t : Nat) (c : Call)   -- task `t` calls `wait_for_state`
  | run (t : Nat)               -- task `t`, woken, goes on
deriving DecidableEq, Repr

def upd {α} (f : Nat → α) (k : Nat) (v : α) : Nat → α := fun x => if x = k then v else f x

def wake : Task → Task
  | .waiting c => .woken c
  | t => t

/-- 924-926, after the event was seen: clear it and test; if the test fails, wait again (the event is cleared). -/
def test (s : State) (t : Nat) (c : Call) : State :=
  { s with ev := false, task := upd s.task t (if holds c.op c.state s.st then .returned else .waiting c) }

/-- 921-926 with cocotb's `Event`: `wait` goes on at once if the event is set, `set` wakes all that wait. -/
def step (s : State) : Op → State
  | .set x => { s with st := x, ev := true, task := fun t => wake (s.task t) }
  | .call t c => if s.ev then test s t c else { s with task := upd s.task t (.waiting c) }
  | .run t => match s.task t with
    | .woken c => test s t c
    | _ => s

def run (s : State) (ops : List Op) : State := ops.foldl step s

end Verif.PhaseLook
