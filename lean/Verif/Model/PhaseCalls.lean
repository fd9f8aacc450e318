import Verif.Model.PhaseRun
import Verif.Model.Traverse
/-!
# Model of the calls phases make on components

src/uvm/base/uvm_phase.py 1303-1476, 1640-1681 (`execute_phase`, the calls of `traverse`) over the component tree: `Verif.Model.PhaseRun` run
together with `Verif.Model.Traverse`.  The tasks of the phases are interleaved in any order; each traversal is part of the step of the task
that makes it, except that a task phase starts its EXECUTING traversal as a coroutine of its own (1357), which runs before
`uvm_wait_for_nba_region` (1361) returns.

Simplifications: `act` (the components in the domain of the phase) does not change; a traversal that does not end within `bound` calls stops
everything (`hung`); what a callback does to the component tree is `ex` (an exception of a callback is not modelled); what task phases do
to the tree is left out (C47: components are only created in the build phase).
-/
namespace Verif.PhaseCalls
open Verif

/-- What `traverse` does for a component (uvm_topdown_phase.py 76-103): `phase_started`, the method of the phase, `phase_ready_to_end`,
`phase_ended`. -/
inductive Call where
  | started | exec | readyToEnd | ended
deriving DecidableEq, Repr

/-- A run: the schedule, which phases are top-down (uvm_common_phases.py), who takes part, what callbacks do to the tree. -/
structure Config where
  G : PhaseRun.Graph
  top : Nat → Bool
  act : Nat → Nat → Bool
  ex : Nat → Call → Nat → Traverse.State → Traverse.State
  bound : Nat

/-- The phases, the component tree (component 0 is `uvm_top`), the coroutines of 1357 that have not run yet, and all calls, oldest first:
phase, component, what. -/
structure State where
  ph : PhaseRun.State
  tree : Traverse.State
  forks : List Nat := []
  calls : List (Nat × Nat × Call) := []
  hung : Bool := false

/-- `self.m_imp.traverse(top, self, state)`: by the kind of the phase. -/
def visit (C : Config) (t : Traverse.State) (p : Nat) (w : Call) : Option (Traverse.State × List Nat) :=
  if C.G.kind p = .task then (Traverse.taskOrder t.kids (C.act p) C.bound 0).map fun l => (t, l)   -- uvm_task_phase.py 79-172
  else if C.top p then Traverse.topdown (C.ex p w) (C.act p) C.bound C.bound 0 t                  -- uvm_topdown_phase.py 56-109
  else Traverse.bottomup (C.ex p w) (C.act p) C.bound C.bound 0 t                                 -- uvm_bottomup_phase.py 54-100

/-- The traversal in the step of the task from position `c` to position `c'`. -/
def due (k : PhaseRun.Kind) (c c' : PhaseRun.Pc) : Option Call :=
  match c with
  | .syncing => if k = .other then none else some .started        -- 1320-1327
  | .fexec => some .exec                                          -- 1342
  | .beforeRte => some .readyToEnd                                -- 1665-1676
  | _ => if c' = .ended then some .ended else none                -- 1420-1426

/-- A traversal and the entries it leaves. -/
def traverse (C : Config) (s : State) (p : Nat) (w : Call) (ph : PhaseRun.State) (forks : List Nat) : State :=
  match visit C s.tree p w with
  | none => { s with hung := true }
  | some r => { s with ph := ph, tree := r.1, forks := forks, calls := s.calls ++ r.2.map fun c => (p, c, w) }

/-- The task of `p` goes on. -/
def adv (C : Config) (s : State) (p : Nat) : State :=
  if s.ph.pc p = .crit ∧ p ∈ s.forks then s                       -- 1357-1361: the coroutine runs first
  else
    match PhaseRun.adv C.G s.ph p with
    | none => s
    | some ph =>
      match due (C.G.kind p) (s.ph.pc p) (ph.pc p) with
      | some w => traverse C s p w ph s.forks
      | none => { s with ph := ph, forks := if s.ph.pc p = .started ∧ C.G.kind p = .task then p :: s.forks else s.forks }   -- 1357

inductive Op where
  | ph (o : PhaseRun.Op)
  | fork (p : Nat)
deriving Repr

/-- The task of a phase, the loop of `m_run_phases`, the user's objections, or a coroutine of 1357. -/
def step (C : Config) (s : State) (o : Op) : State :=
  if s.hung then s else
  match o with
  | .ph (.adv p) => adv C s p
  | .ph o => { s with ph := PhaseRun.step C.G s.ph o }
  | .fork p => if p ∈ s.forks then traverse C s p .exec s.ph (s.forks.erase p) else s

def run (C : Config) (s : State) (ops : List Op) : State := ops.foldl (step C) s

end Verif.PhaseCalls
