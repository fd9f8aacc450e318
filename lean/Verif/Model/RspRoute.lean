import Verif.Model.SqrIds
/-!
# Model of items and their responses on several sequencers

On top of `Verif.Model.SqrIds`: src/uvm/seq/uvm_sequencer_param_base.py (`send_request` 118-126), src/uvm/seq/uvm_sequence_base.py
172 (`m_next_transaction_id`), src/uvm/seq/uvm_sequence_item.py 162-177 (`set_id_info`), src/uvm/base/uvm_transaction.py 177
(`m_transaction_id` of a new item).

Items are numbers (objects); a driver answers an item with a new response object on which it calls `set_id_info`. Users' calls
of `set_transaction_id` and the capacity of the response queues (see `Verif.Model.Response`) are not modelled.
-/
namespace Verif.RspRoute

/-- The id tables; `m_next_transaction_id` of each sequence; transaction id and sequence id of each item. -/
structure State where
  base : SqrIds.State := {}
  nextT : Nat → Nat := fun _ => 1
  tid : Nat → Int := fun _ => -1
  sid : Nat → Int := fun _ => -1

/-- Start, grant, end of sequences; sequence `i` sends item `x` through sequencer `q`; the driver of `q` answers item `x`. -/
inductive Op where
  | start (i : Nat) (q : Option Nat) | register (i q : Nat) | exit (i q : Nat) | send (i q x : Nat) | respond (q x : Nat)
deriving DecidableEq, Repr

/-- `to i t`: sequence `i` is given a response with transaction id `t`. -/
inductive Out where
  | unit | to (i : Nat) (t : Int) | lost | fatal
deriving DecidableEq, Repr

/-- `send_request` 118-120: an item without transaction id gets the next one of the sequence. -/
def number (s : State) (i x : Nat) : State :=
  if s.tid x = -1 then
    { s with tid := fun y => if y = x then s.nextT i else s.tid y, nextT := fun j => if j = i then s.nextT i + 1 else s.nextT j }
  else s

/-- `send_request` 118-126. -/
def send (s : State) (i q x : Nat) : State :=
  let s := number s i x
  let r := SqrIds.getId s.base i q
  { s with base := r.1, sid := fun y => if y = x then r.2 else s.sid y }

/-- `set_id_info` and `put_response`: the response has the ids of the item. -/
def respond (s : State) (q x : Nat) : Out :=
  match SqrIds.response s.base q (s.sid x) with
  | .to i => .to i (s.tid x)
  | .fatal => .fatal
  | _ => .lost

def step (s : State) : Op → State × Out
  | .start i q => ({ s with base := SqrIds.start s.base i q }, .unit)
  | .register i q => ({ s with base := SqrIds.register s.base i q }, .unit)
  | .exit i q => ({ s with base := SqrIds.exit s.base i q }, .unit)
  | .send i q x => (send s i q x, .unit)
  | .respond q x => (s, respond s q x)

def init : State := {}

end Verif.RspRoute
