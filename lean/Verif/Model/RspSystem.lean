import Verif.Model.RspRoute
import Verif.Model.Response
/-!
# Model of sequences that wait for the responses to their items, on several sequencers

Composition of `Verif.Model.RspRoute` (ids, sending, answers of the drivers) with one response queue per sequence
(`Verif.Model.Response`): `put_response` of a sequencer (src/uvm/seq/uvm_sequencer_param_base.py 315-324) stores the response in the queue of
the sequence it finds (src/uvm/seq/uvm_sequence_base.py 1228-1251), `start` clears the queue (317). Sequences that use
a response handler (uvm_sequencer_param_base.py 319-321) are not modelled.
-/
namespace Verif.RspSystem

/-- A response: the item it answers (for the record) and its transaction id (uvm_sequence_item.py, `set_id_info`; uvm_transaction
`get_transaction_id`). -/
structure Rsp where
  item : Nat
  tid : Int
deriving DecidableEq, Repr

/-- The sequencers with the items (uvm_sequencer_base.py), and `response_queue` (uvm_sequence_base.py 181) of every sequence. -/
structure State where
  route : RspRoute.State := {}
  queue : Nat → Response.State Rsp := fun _ => {}

/-- A call of `RspRoute`, or coroutine `t` of sequence `i` calls `get_response(id)`, is resumed or killed; the depth of the
response queue of a sequence is set (uvm_sequence_base.py 1193-1206, 1253-1284). -/
inductive Op where
  | route (o : RspRoute.Op) | get (i t : Nat) (id : Int) | resume (i t : Nat) | kill (i t : Nat) | setDepth (i : Nat) (d : Int)
deriving DecidableEq, Repr

/-- What a call does to the response queue of a sequence: every sequence has its own (uvm_sequence_base.py 181). -/
def onQueue (s : State) (i : Nat) (o : Response.Op Rsp) : State × Response.Out Rsp :=
  ({ s with queue := fun j => if j = i then (Response.step Rsp.tid (s.queue i) o).1 else s.queue j },
    (Response.step Rsp.tid (s.queue i) o).2)

/-- The effect of a call of `RspRoute` on the response queues: `start` (uvm_sequence_base.py 317), `put_response`
(uvm_sequencer_param_base.py 315-324). -/
def after (s : State) : RspRoute.Op → RspRoute.Out → State × Response.Out Rsp
  | .start i _, _ => onQueue s i .clear
  | .respond _ x, .to i t => onQueue s i (.put ⟨x, t⟩)
  | _, _ => (s, .unit)

/-- One call: those of `RspRoute`, and `get_base_response` (uvm_sequence_base.py 1253-1284), in atomic segments. -/
def step (s : State) : Op → State × Response.Out Rsp
  | .route o => after { s with route := (RspRoute.step s.route o).1 } o (RspRoute.step s.route o).2
  | .get i t id => onQueue s i (.get t id)
  | .resume i t => onQueue s i (.resume t)
  | .kill i t => onQueue s i (.kill t)
  | .setDepth i d => onQueue s i (.setDepth d)

/-- No sequence has an id and every queue is empty (uvm_sequence_base.py 176-190). -/
def init : State := {}

end Verif.RspSystem
