import Verif.Model.Port
import Verif.Model.Comparator
import Verif.Model.Sequencer
/-!
# A checking environment put together: analysis ports, FIFOs, comparators, and a driver that is served by a sequencer

The parts are the models of `UVMPortBase` and `UVMAnalysisPort` (`Verif.Model.Port`), `UVMTLMAnalysisFIFO` (`Verif.Model.TlmFifo`),
`UVMInOrderComparator` (`Verif.Model.Comparator`) and of the sequencer (`Verif.Model.Sequencer`); this file only says how one calls the
other.  An implementation at the end of a connection belongs to a subscriber (`UVMSubscriber`, src/uvm/comps/uvm_subscriber.py 28-58, whose
`write` keeps the transaction), to an analysis FIFO (src/uvm/tlm1/uvm_tlm_fifos.py 198-211), or to one of the two FIFOs of a comparator
(src/uvm/comps/uvm_in_order_comparator.py 116-140).  Transactions are values: nobody changes a transaction after it was written.
-/
namespace Verif.Scoreboard
variable {α : Type}

/-- Who is called at the end of a connection. -/
inductive Sink where
  | sub (k : Nat) | fifo (k : Nat) | before (c : Nat) | after (c : Nat)
deriving DecidableEq, Repr

/-- All subscribers (what each has received), analysis FIFOs (with what their calls returned) and comparators (with the pairs published). -/
structure State (α : Type) where
  subs : Nat → List α := fun _ => []
  fifos : Nat → TlmFifo.State α := fun _ => TlmFifo.initAnalysis
  fifoOut : Nat → List (TlmFifo.Out α) := fun _ => []
  cmps : Nat → Comparator.State α := fun _ => Comparator.init
  pairs : Nat → List (Comparator.Pair α) := fun _ => []

/-- Assignment to one key. -/
def upd {β : Type} (f : Nat → β) (k : Nat) (v : β) : Nat → β := fun x => if x = k then v else f x

/-- A call of analysis FIFO `k`, uvm_tlm_fifos.py. -/
def fifoStep (s : State α) (k : Nat) (e : TlmFifo.Ev α) : State α :=
  { s with
    fifos := upd s.fifos k (TlmFifo.step (s.fifos k) e).1
    fifoOut := upd s.fifoOut k (s.fifoOut k ++ [(TlmFifo.step (s.fifos k) e).2]) }

/-- A transition of comparator `c`, uvm_in_order_comparator.py. -/
def cmpStep (comp : α → α → Bool) (s : State α) (c : Nat) (e : Comparator.Ev α) : State α :=
  { s with
    cmps := upd s.cmps c (Comparator.step comp (s.cmps c) e).1
    pairs := upd s.pairs c (s.pairs c ++ (Comparator.step comp (s.cmps c) e).2) }

/-- The `write` of the implementation: uvm_subscriber.py 57-58, uvm_tlm_fifos.py 210-211, uvm_in_order_comparator.py 138-139. -/
def deliver (comp : α → α → Bool) (s : State α) (x : α) : Sink → State α
  | .sub k => { s with subs := upd s.subs k (s.subs k ++ [x]) }
  | .fifo k => fifoStep s k (.write x)
  | .before c => cmpStep comp s c (.writeBefore x)
  | .after c => cmpStep comp s c (.writeAfter x)

/-- One call made by an analysis port; `sink i` is what implementation `i` belongs to. -/
def call (comp : α → α → Bool) (sink : Nat → Sink) (x : α) (s : State α) : Port.Call → State α
  | .imp i => deliver comp s x (sink i)
  | .notConnected => s

/-- What consumers of an analysis FIFO call. -/
inductive Take (α : Type) where
  | get (t : Nat) | peek (t : Nat) (list : Bool) | resume (t : Nat) | kill (t : Nat) | tryGet (l : List α) | tryPeek (l : List α) | flush
deriving DecidableEq, Repr

/-- The call of the FIFO. -/
def Take.ev : Take α → TlmFifo.Ev α
  | .get t => .callGet t
  | .peek t b => .callPeek t b
  | .resume t => .resume t
  | .kill t => .kill t
  | .tryGet l => .tryGet l
  | .tryPeek l => .tryPeek l
  | .flush => .flush

/-- What happens to a comparator besides the writes: its phase starts, its coroutine is resumed, its counters are cleared. -/
inductive Go where
  | start | resume | flush
deriving DecidableEq, Repr

/-- The transition of the comparator. -/
def Go.ev : Go → Comparator.Ev α
  | .start => .start
  | .resume => .resume
  | .flush => .flush

/-- What can happen: some component writes to an analysis port or export, a consumer calls a FIFO, a comparator runs. -/
inductive Op (α : Type) where
  | write (p : Nat) (x : α) | fifo (k : Nat) (e : Take α) | cmp (c : Nat) (e : Go)
deriving DecidableEq, Repr

/-- One step in the bound network `net`; a `write` is uvm_analysis_port.py 63-76. -/
def step (comp : α → α → Bool) (net : Port.State) (sink : Nat → Sink) (s : State α) : Op α → State α
  | .write p x => (Port.write net p).foldl (call comp sink x) s
  | .fifo k e => fifoStep s k e.ev
  | .cmp c e => cmpStep comp s c e.ev

/-- A history. -/
def run (comp : α → α → Bool) (net : Port.State) (sink : Nat → Sink) (s : State α) (ops : List (Op α)) : State α :=
  ops.foldl (step comp net sink) s

/-- A testbench: a sequencer with its sequences and its driver, and everything above. -/
structure Bench (α : Type) where
  sqr : Sequencer.State := {}
  outs : List Sequencer.Out := []
  sb : State α := {}

/-- A step of the sequencer, of one of its sequences or of its driver, or of something else. -/
inductive BOp (α : Type) where
  | seq (o : Sequencer.Op) | other (o : Op α)

/-- The items the driver has finished in this step (`item_done` returned): for each the driver writes what it observed to its analysis
port.  The driver is user code; this is the usual loop of a driver (src/uvm/comps/uvm_driver.py 35-53 says the interface). -/
def observe (obs : Sequencer.Item → α) : List Sequencer.Out → List α
  | [] => []
  | .done x :: l => obs x :: observe obs l
  | _ :: l => observe obs l

/-- One step of the testbench; the driver's analysis port is `port`. -/
def bstep (mode : Arbiter.Mode) (rel : Arbiter.Seq → Bool) (rnd : Nat → Nat) (comp : α → α → Bool) (net : Port.State) (sink : Nat → Sink)
    (port : Nat) (obs : Sequencer.Item → α) (b : Bench α) : BOp α → Bench α
  | .seq o =>
    let r := Sequencer.step mode rel rnd b.sqr o
    ⟨r.1, b.outs ++ r.2, run comp net sink b.sb ((observe obs r.2).map (.write port))⟩
  | .other o => { b with sb := step comp net sink b.sb o }

end Verif.Scoreboard
