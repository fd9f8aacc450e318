/-!
# Model of the execution of phases (src/uvm/base/uvm_phase.py 1119-1681)

One task per phase (`execute_phase`), started by the loop of `m_run_phases`.  A task is a program counter; one step of the machine is
what a task does between two suspensions, and the steps of different tasks are interleaved in any order.  Objections are raised and
dropped by the user at any time; only their total at the top is kept (`Verif.Model.Objection` has the rest).  An event that is waited
for wakes every waiter when it is set; a waiter that comes when it is set goes on at once (cocotb's `Event`).

Left out: jumps (`jump`, `set_jump_phase` do not exist in the code, so 1389-1406, 1460-1463, 1480-1484 are unreachable), synchronised
phases (`sync` does not exist, so `m_sync` is empty), phase callbacks, traces, `+UVM_USE_OVM_RUN_SEMANTIC`.  Setting a phase to SCHEDULED and
putting it into the hopper (1501-1504) is one step.
-/
namespace Verif.PhaseRun

/-- uvm_object_globals.py 474-483. -/
inductive St where
  | dormant | scheduled | syncing | started | executing | readyToEnd | ended | cleanup | done
deriving DecidableEq, Repr

/-- The value of the state constant. -/
def St.code : St → Nat
  | .dormant => 1 | .scheduled => 2 | .syncing => 4 | .started => 8 | .executing => 16 | .readyToEnd => 32
  | .ended => 64 | .cleanup => 128 | .done => 256

/-- Phase nodes with a function or a task phase; schedules, domains and their ends. -/
inductive Kind where
  | func | task | other
deriving DecidableEq, Repr

/-- A phase schedule: phases `0 … n-1`, phase 0 is the common domain.  `final`: the phases called "final" (1149). -/
structure Graph where
  n : Nat
  preds : Nat → List Nat
  succs : Nat → List Nat
  kind : Nat → Kind
  final : Nat → Bool := fun _ => false

/-- `d[k] = 1` on the keys of a dictionary. -/
def addKey (l : List Nat) (k : Nat) : List Nat := if k ∈ l then l else l ++ [k]

/-- 715-720, 1141-1146: one round of replacing the keys that are not nodes by their neighbours. -/
def expandOnce (G : Graph) (nx : Nat → List Nat) (d : List Nat) : List Nat :=
  d.foldl (fun acc s => if G.kind s = .other then (nx s).foldl addKey (acc.erase s) else acc) d

/-- 711-722, 1136-1146: rounds until only nodes are left; `none`: not within `fuel` rounds. -/
def expand (G : Graph) (nx : Nat → List Nat) : Nat → List Nat → Option (List Nat)
  | 0, d => if d.all (fun s => G.kind s ≠ .other) then some d else none
  | fuel + 1, d => if d.all (fun s => G.kind s ≠ .other) then some d else expand G nx fuel (expandOnce G nx d)

/-- 1119-1150: `get_predecessors_for_successors`: the phases with a common successor; `none` is the KeyError of line 1150. -/
def sibs (G : Graph) (p : Nat) : Option (List Nat) :=
  match expand G G.succs G.n (G.succs p) with                              -- 1122
  | none => none
  | some adj =>
    match expand G G.preds G.n ((adj.flatMap G.preds).foldl addKey []) with  -- 1126-1146
    | none => none
    | some d => if G.final p then some d else if p ∈ d then some (d.erase p) else none

/-- Where the task of a phase is.  `w` in a waiting position: the awaited event has been set. -/
inductive Pc where
  | idle                                                         -- not started
  | waitPreds                                                    -- 1265
  | syncing                                                      -- 1287
  | started                                                      -- 1306, 1330
  | fexec                                                        -- 1340: function phase
  | oexec                                                        -- 1312: schedule, domain, end
  | predWait (l : List Nat) (w : Bool)                           -- 1160-1167, waiting for the head
  | crit                                                         -- 1361
  | ownFirst (w : Bool)                                          -- 1647
  | startW (sec : Bool)                                          -- 1564; `sec`: called from 1678, not 1654
  | ownDrop (sec : Bool) (w : Bool)                              -- 1573
  | sib (sec need : Bool) (l : List Nat) (w : Bool)              -- 1580, waiting for the head
  | sibDrop (sec : Bool) (l : List Nat) (w : Bool)               -- 1585, waiting for the head
  | beforeRte                                                    -- 1663
  | ended                                                        -- 1428
  | cleanup                                                      -- 1447
  | sched (l : List Nat)                                         -- 1494
  | over
  | crashed                                                      -- KeyError
deriving DecidableEq, Repr

structure State where
  st : Nat → St := fun _ => .dormant
  pc : Nat → Pc := fun _ => .idle
  ev : Nat → Bool := fun _ => false            -- `m_phase_set_state_event`
  doneEv : Nat → Bool := fun _ => false        -- `m_phase_done_event`
  obj : Nat → Nat := fun _ => 0                -- total of `phase_done`
  rte : Nat → Nat := fun _ => 0                -- `m_ready_to_end_count`
  hopper : List Nat := [0]                     -- 1235
  dup : Bool := false                          -- a second task of the same phase was started
  allDone : Bool := false                      -- `m_phase_all_done_event`
  log : List (Nat × St) := []                  -- all state changes, newest first

def upd {α : Type} (f : Nat → α) (i : Nat) (v : α) : Nat → α := fun j => if j = i then v else f j

/-- A task waiting for a change of the state of `p` is woken. -/
def wakeSt (p : Nat) : Pc → Pc
  | .predWait (q :: l) w => .predWait (q :: l) (w || q == p)
  | .sib sec need (q :: l) w => .sib sec need (q :: l) (w || q == p)
  | pc => pc

/-- A task (of `x`) waiting for all objections to phase `p` to be dropped is woken. -/
def wakeDrop (p x : Nat) : Pc → Pc
  | .ownFirst w => .ownFirst (w || x == p)
  | .ownDrop sec w => .ownDrop sec (w || x == p)
  | .sibDrop sec (q :: l) w => .sibDrop sec (q :: l) (w || q == p)
  | pc => pc

/-- 299-309: `set_state`. -/
def setSt (s : State) (p : Nat) (x : St) : State :=
  { s with st := upd s.st p x, ev := upd s.ev p true, pc := fun q => wakeSt p (s.pc q),
           doneEv := if x = .done then upd s.doneEv p true else s.doneEv, log := (p, x) :: s.log }

def setPc (s : State) (p : Nat) (c : Pc) : State := { s with pc := upd s.pc p c }

/-- All objections to `p` are gone: waiters are woken. -/
def wakeDropped (s : State) (p : Nat) : State := { s with pc := fun q => wakeDrop p q (s.pc q) }

/-- 1661-1680, 1388-1428: leaving `wait_for_self_and_siblings_to_drop`. -/
def exitW (s : State) (p : Nat) (sec : Bool) : State :=
  if sec = false then setPc s p .beforeRte
  else if s.st p = .executing ∧ s.rte p < 20 then setPc s p .beforeRte        -- 1679-1680
  else setPc (setSt s p .ended) p .ended                                      -- 1420

/-- 1566-1574: the top of the loop; `l`: the siblings. -/
def topW (s : State) (p : Nat) (sec : Bool) (l : List Nat) : State :=
  if s.obj p ≠ 0 then setPc (setSt s p .executing) p (.ownDrop sec false)
  else match l with
    | [] => exitW s p sec
    | q :: l => setPc s p (.sib sec false (q :: l) (s.ev q))

/-- 1578: the rest of the loop over the siblings. -/
def nextSib (s : State) (p : Nat) (sec need : Bool) (all : List Nat) : List Nat → State
  | q :: l => setPc s p (.sib sec need (q :: l) (s.ev q))
  | [] => if need then topW s p sec all else exitW s p sec

/-- 1160: the loop of `m_wait_for_pred`. -/
def nextPred (s : State) (p : Nat) : List Nat → State
  | q :: l => setPc s p (.predWait (q :: l) (s.ev q))
  | [] => setPc s p (.predWait [] true)

/-- 1468-1492: DONE, then the successors or the end of everything. -/
def finish (G : Graph) (s : State) (p : Nat) : State :=
  let s := setSt s p .done
  match G.succs p with
  | [] => setPc { s with allDone := true } p .over
  | l => setPc s p (.sched l)

/-- The task of phase `p` goes on; `none`: it has not been started, is blocked or is over. -/
def adv (G : Graph) (s : State) (p : Nat) : Option State :=
  match s.pc p with
  | .idle => none
  | .waitPreds =>                                                       -- 1513-1525, 1270-1285
    if (G.preds p).all s.doneEv then
      if s.st p = .done then some (setPc s p .over) else some (setPc (setSt s p .syncing) p .syncing)
    else none
  | .syncing => some (setPc (setSt { s with rte := upd s.rte p 0 } p .started) p .started)   -- 1303, 1320-1329
  | .started =>                                                         -- 1309, 1338, 1348
    some (setPc (setSt s p .executing) p (match G.kind p with | .func => .fexec | .task => .crit | .other => .oexec))
  | .oexec => some (finish G s p)
  | .fexec =>                                                           -- 1342, 1153-1156
    match sibs G p with
    | none => some (setPc s p .crashed)
    | some l => some (nextPred s p l)
  | .predWait [] _ => some (setPc (setSt s p .ended) p .ended)          -- 1189, 1420
  | .predWait (q :: l) w =>                                             -- 1167, 921-926
    if w then
      let s := { s with ev := upd s.ev q false }
      if St.readyToEnd.code ≤ (s.st q).code then some (nextPred s p l) else some (setPc s p (.predWait (q :: l) false))
    else none
  | .crit =>                                                            -- 1644-1654, 1561
    if s.obj p ≠ 0 then some (setPc s p (.ownFirst false))
    else match sibs G p with
      | none => some (setPc s p .crashed)
      | some _ => some (setPc s p (.startW false))
  | .ownFirst w =>
    if w then match sibs G p with
      | none => some (setPc s p .crashed)
      | some _ => some (setPc s p (.startW false))
    else none
  | .startW sec => some (topW s p sec ((sibs G p).getD []))              -- 1566
  | .ownDrop sec w => if w then some (nextSib s p sec true ((sibs G p).getD []) ((sibs G p).getD [])) else none   -- 1574-1578
  | .sib sec need [] _ => some (nextSib s p sec need ((sibs G p).getD []) [])
  | .sib sec need (q :: l) w =>                                         -- 1580-1585, 921-926
    if w then
      let s := { s with ev := upd s.ev q false }
      if St.executing.code ≤ (s.st q).code then
        if s.obj q ≠ 0 then some (setPc (setSt s p .executing) p (.sibDrop sec (q :: l) false))
        else some (nextSib s p sec need ((sibs G p).getD []) l)
      else some (setPc s p (.sib sec need (q :: l) false))
    else none
  | .sibDrop sec l w => if w then some (nextSib s p sec true ((sibs G p).getD []) l.tail) else none   -- 1586
  | .beforeRte => some (setPc (setSt { s with rte := upd s.rte p (s.rte p + 1) } p .readyToEnd) p (.startW true))  -- 1665-1678
  | .ended => some (setPc (setSt s p .cleanup) p .cleanup)              -- 1442
  | .cleanup => some (finish G (wakeDropped { s with obj := upd s.obj p 0 } p) p)   -- 1454-1475
  | .sched [] => some (setPc s p .over)
  | .sched (q :: l) =>                                                  -- 1498-1504
    let s := if (s.st q).code < St.scheduled.code then
        let s := setSt s q .scheduled
        { s with hopper := s.hopper ++ [q] }
      else s
    some (setPc s p (.sched l))
  | .over => none
  | .crashed => none

/-- 1238-1246: the loop of `m_run_phases` starts the next task. -/
def spawn (s : State) : Option State :=
  match s.hopper with
  | [] => none
  | q :: t => if s.pc q = .idle then some { setPc s q .waitPreds with hopper := t } else some { s with hopper := t, dup := true }

/-- What can happen: tasks go on, the user raises and drops objections to task phases. -/
inductive Op where
  | adv (p : Nat) | spawn | raise (p : Nat) | drop (p : Nat)
deriving DecidableEq, Repr

/-- 785-807 with `m_raise`, `m_drop` for the total at the top. -/
def step (G : Graph) (s : State) : Op → State
  | .adv p => (adv G s p).getD s
  | .spawn => (spawn s).getD s
  | .raise p => if G.kind p = .task then { s with obj := upd s.obj p (s.obj p + 1) } else s
  | .drop p =>
    if s.obj p = 0 then s
    else
      let t := { s with obj := upd s.obj p (s.obj p - 1) }
      if s.obj p = 1 then wakeDropped t p else t

def run (G : Graph) (s : State) (ops : List Op) : State := ops.foldl (step G) s

end Verif.PhaseRun
