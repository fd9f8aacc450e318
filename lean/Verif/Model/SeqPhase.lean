import Verif.Model.PhaseObj
import Verif.Model.SeqStart
/-!
# Sequences that object to their starting phase

`Verif.Model.SeqStart` for any number of sequences, step by step and interleaved with each other and with the phases and objections of `Verif.Model.PhaseObj`
(src/uvm/seq/uvm_sequence_base.py 261-427, 673-698).  Sequence `i` is object `i` of the tree of the objections, below its sequencer (`m_get_parent`,
uvm_objection.py 336-349).

Left out: priority, children, registration with the sequencer (C82, C32); starting phases without an objection (a function phase: 741-780 of uvm_phase.py report a fatal
error; here the call has no effect).
-/
namespace Verif.SeqPhase
open Verif.SeqStart (Seq Hook Script Act)
open Verif.PhaseRun (Graph upd)

/-- A sequence and what `start_process` still has to do. -/
structure Sq where
  seq : Seq := {}
  todo : List SeqStart.Step := []
deriving DecidableEq

structure State where
  base : PhaseObj.State := {}
  sq : Nat → Sq := fun _ => {}

/-- What the surroundings are: the schedule, the tree of objects, the methods of the sequences. -/
structure Cfg where
  G : Graph
  t : Objection.Tree
  sc : Nat → Hook → Script

/-- 382-383, 421-422, 673-698: the call on the objection of the starting phase that a step of sequence `i` makes. -/
def call (i : Nat) (q : Seq) : SeqStart.Step → Option PhaseObj.Op
  | .raiseObj => if q.apo then q.phase.map (fun p => .obj p (.raise i 1)) else none
  | .dropObj => if q.apo then q.phase.map (fun p => .obj p (.drop i 1)) else none
  | _ => none

inductive Op where
  /-- phases, and objections of others -/
  | base (o : PhaseObj.Op)
  /-- `start` is called -/
  | begin (i : Nat) (parent callPrePost : Bool)
  /-- the settings of the sequence are used from outside -/
  | act (i : Nat) (a : Act)
  /-- `start_process` goes on -/
  | adv (i : Nat)
deriving DecidableEq

/-- The end of `start` (367-369). -/
def leave (q : Seq) : Seq := { q with apoLocked := false, phase := none, phaseLocked := false }

def next (C : Cfg) (s : State) (i : Nat) : SeqStart.Step → List SeqStart.Step → Sq
  | p, rest =>
    let r := SeqStart.step (C.sc i) (s.sq i).seq p
    if r.2 = false then { seq := r.1, todo := [] }
    else if rest = [] then { seq := leave r.1, todo := [] }
    else { seq := r.1, todo := rest }

def step (C : Cfg) (s : State) : Op → State
  | .base o => { s with base := PhaseObj.step C.G C.t s.base o }
  | .begin i parent cpp =>
    let q := (s.sq i).seq
    if (q.state = .created ∨ q.state = .stopped ∨ q.state = .finished) ∧ (s.sq i).todo = [] then   -- 299
      { s with sq := upd s.sq i { seq := { q with state := .preStart }, todo := SeqStart.prog parent cpp } }   -- 346-348
    else s
  | .act i a => { s with sq := upd s.sq i { s.sq i with seq := SeqStart.act (s.sq i).seq a } }
  | .adv i =>
    match (s.sq i).todo with
    | [] => s
    | p :: rest =>
      { base := match call i (s.sq i).seq p with
          | some o => PhaseObj.step C.G C.t s.base o
          | none => s.base
        sq := upd s.sq i (next C s i p rest) }

def run (C : Cfg) (s : State) (ops : List Op) : State := ops.foldl (step C) s

end Verif.SeqPhase
