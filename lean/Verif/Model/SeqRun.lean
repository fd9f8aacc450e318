import Verif.Model.SeqPhase
import Verif.Model.Sequencer
/-!
# Sequences that send items to a driver while phases run

`Verif.Model.SeqPhase` (starting a sequence, its objection, the phases) together with `Verif.Model.Sequencer` (the sequencer between the sequences and the driver).  Sequence
number `i` is object `i` of the tree of objections, runs in coroutine `i` and has the instance id `i` for the sequencer.  A sequence calls `start_item`/`finish_item`
(src/uvm/seq/uvm_sequence_base.py 981-1059) from its `body`, which `start_process` awaits (400), so `body` does not return while such a call is suspended.

Left out: items sent from `pre_body`/`post_body`, and what the two models leave out.
-/
namespace Verif.SeqRun
open Verif.Arbiter (Mode)

structure State where
  ph : SeqPhase.State := {}
  sq : Sequencer.State := {}
  /-- what happened: the calls that were made and the observable effects of the sequencer -/
  phOps : List SeqPhase.Op := []
  sqOps : List Sequencer.Op := []
  outs : List Sequencer.Out := []

inductive Op where
  | ph (o : SeqPhase.Op)
  | sq (o : Sequencer.Op)

/-- uvm_sequence_base.py 397-400: `start_process` is at its call of `body`. -/
def inBody (x : SeqPhase.Sq) : Bool :=
  match x.todo with
  | .hook .body :: _ => true
  | _ => false

/-- The coroutine is not suspended in a call of the sequencer. -/
def isIdle : Sequencer.Task → Bool
  | .idle => true
  | _ => false

/-- 400: `await self.body()`: a body that awaits a call of the sequencer does not return. -/
def blocked (s : State) : SeqPhase.Op → Bool
  | .adv i => inBody (s.ph.sq i) && !isIdle (s.sq.tasks i)
  | _ => false

/-- 981-1059: `start_item` and `finish_item` are called by the body of the sequence. -/
def mayCall (s : State) : Sequencer.Op → Bool
  | .startItem t q _ _ => inBody (s.ph.sq t) && q.inst == t
  | .finishItem t q _ _ => inBody (s.ph.sq t) && q.inst == t
  | _ => true

variable (C : SeqPhase.Cfg) (mode : Mode) (rel : Arbiter.Seq → Bool) (rnd : Nat → Nat)

/-- One step: of the phases, objections or `start_process`; or of the sequencer, a sequence's call of it, or the driver. -/
def step (s : State) : Op → State
  | .ph o => if blocked s o then s else { s with ph := SeqPhase.step C s.ph o, phOps := s.phOps ++ [o] }
  | .sq o =>
    if mayCall s o then
      { s with sq := (Sequencer.step mode rel rnd s.sq o).1, outs := s.outs ++ (Sequencer.step mode rel rnd s.sq o).2, sqOps := s.sqOps ++ [o] }
    else s

def run (s : State) (ops : List Op) : State := ops.foldl (step C mode rel rnd) s

end Verif.SeqRun
