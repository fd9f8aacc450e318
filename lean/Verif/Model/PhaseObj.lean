import Verif.Model.PhaseRun
import Verif.Model.Objection
/-!
# Phases with their objections

`Verif.Model.PhaseRun` with, for every task phase, the whole objection `phase_done` of `Verif.Model.Objection`: components raise and drop, drops go up the tree
through drains, and the task of the phase looks at the total of the root and is woken by `all_dropped` of the root (src/uvm/base/uvm_phase.py 1450-1454, 1566-1586,
1644-1647; src/uvm/base/uvm_objection.py 956-959, 983-1001).

An exception in `clear` (C65) ends the task of the phase.  Left out: the second `clear` after DONE (uvm_phase.py 1474-1475); an event that is still set because
another waiter has not yet gone on.
-/
namespace Verif.PhaseObj
open Verif.PhaseRun (Graph Pc St Kind upd setPc wakeDropped)

structure State where
  ph : PhaseRun.State := {}
  ob : Nat → Objection.State := fun _ => {}

/-- What the tasks see of the objections: the totals of the root (`get_objection_total(top)`, 1571, 1582, 1644). -/
def view (s : State) : PhaseRun.State := { s.ph with obj := fun p => ((s.ob p).total 0).natAbs }

/-- 1646: if the root has already drained, the phase does not wait although there is an objection. -/
def seen (s : State) (p : Nat) : PhaseRun.State :=
  if s.ph.pc p = .crit ∧ (s.ob p).total 0 ≠ 0 ∧ (s.ob p).topAllDropped = true then setPc (view s) p (.ownFirst true) else view s

/-- 1450-1475 of a task phase: the objection is cleared, then the phase is DONE. -/
def clean (G : Graph) (s : State) (p : Nat) : State :=
  let c := Objection.clear (s.ob p)
  if c.2 = [] then { ph := (PhaseRun.adv G (view s) p).getD s.ph, ob := upd s.ob p c.1 }
  else { ph := setPc s.ph p .crashed, ob := upd s.ob p c.1 }

/-- Waiters for `all_dropped` of the root are woken (uvm_objection.py 765-766, 956-957). -/
def announces (o : Objection.Op) (out : List Objection.Out) : Bool :=
  (o == .clear && out.isEmpty) || out.any fun
    | .allDropped x _ _ => x == 0
    | _ => false

/-- Tasks go on; calls and coroutines of the objection of a phase. -/
inductive Op where
  | adv (p : Nat) | spawn | obj (p : Nat) (o : Objection.Op)
deriving DecidableEq, Repr

def step (G : Graph) (t : Objection.Tree) (s : State) : Op → State
  | .adv p => if s.ph.pc p = .cleanup ∧ G.kind p = .task then clean G s p else { s with ph := (PhaseRun.adv G (seen s p) p).getD s.ph }
  | .spawn => { s with ph := (PhaseRun.spawn s.ph).getD s.ph }
  | .obj p o =>
    if G.kind p = .task then
      let r := Objection.step t (s.ob p) o
      { ph := if announces o r.2 then wakeDropped s.ph p else s.ph, ob := upd s.ob p r.1 }
    else s

def run (G : Graph) (t : Objection.Tree) (s : State) (ops : List Op) : State := ops.foldl (step G t) s

end Verif.PhaseObj
