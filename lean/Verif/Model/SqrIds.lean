import Verif.Util.Machine
/-!
# Model of the identification of sequences on several sequencers

src/uvm/seq/uvm_sequence_base.py (`start` 336-342, 356-358; `m_get_sqr_sequence_id` 1287-1304; `m_set_sqr_sequence_id` 1307-1317),
src/uvm/seq/uvm_sequencer_base.py (`m_register_sequence` 1023-1037, `m_unregister_sequence` 1040-1049, `m_find_sequence`
1051-1071, line 978 of `remove_sequence_from_queues`), src/uvm/seq/uvm_sequencer_param_base.py (`send_request` 126,
`put_response` 309-324).

Sequences and sequencers are numbers; a sequencer's number is its `m_sequencer_id` (distinct, uvm_sequencer_base.py 110-111).
Only the ids are modelled: arbitration and the FIFOs of one sequencer are in `Verif.Model.Sequencer`, what a sequence does
with a response in `Verif.Model.Response`. Users' calls of `set_sequence_id` are not modelled.
-/
namespace Verif.SqrIds

/-- `g` is `g_sequence_id` (shared by all sequencers, 96); `ids i` is `m_sqr_seq_ids` of sequence `i`; `cur i` its
`m_sequence_id`; `reg q` is `reg_sequences` of sequencer `q`. -/
structure State where
  g : Nat := 1
  ids : Nat → Nat → Option Nat := fun _ _ => none
  cur : Nat → Int := fun _ => -1
  reg : Nat → Int → Option Nat := fun _ _ => none

/-- `start` of a sequence on a sequencer or on none; `wait_for_grant` (uvm_sequencer_base.py 407);
`send_request`; the end of the sequence or `kill_sequence` at a sequencer; `put_response` with a sequence id. -/
inductive Op where
  | start (i : Nat) (q : Option Nat) | register (i q : Nat) | send (i q : Nat) | exit (i q : Nat) | response (q : Nat) (id : Int)
deriving DecidableEq, Repr

/-- `sent`: the id written into the item. `to`: the sequence given the response. `lost`: the information message of 324.
`fatal`: 309-313. -/
inductive Out where
  | unit | sent (id : Int) | to (i : Nat) | lost | fatal
deriving DecidableEq, Repr

def setCur (s : State) (i : Nat) (v : Int) : State := { s with cur := fun j => if j = i then v else s.cur j }

/-- `m_get_sqr_sequence_id` 1287-1304 with `update_sequence_id = 1`. -/
def getId (s : State) (i q : Nat) : State × Int :=
  match s.ids i q with
  | some n => (setCur s i n, n)                                   -- 1297-1300
  | none => (setCur s i (-1), -1)                                 -- 1302-1304

/-- `m_set_sqr_sequence_id` 1307-1317. -/
def setId (s : State) (i q n : Nat) : State :=
  setCur { s with ids := fun j r => if j = i ∧ r = q then some n else s.ids j r } i n

/-- `m_register_sequence` 1023-1037. -/
def register (s : State) (i q : Nat) : State :=
  let r := getId s i q
  if r.2 > 0 then r.1                                             -- 1031-1032
  else
    let s := setId r.1 i q r.1.g                                  -- 1034
    let s := { s with g := s.g + 1 }                              -- 1035
    { s with reg := fun r k => if r = q ∧ k = s.cur i then some i else s.reg r k }      -- 1036

/-- uvm_sequence_base.py 336-342. -/
def start (s : State) (i : Nat) (q : Option Nat) : State :=
  let s := setCur s i (-1)                                                              -- 336
  let s := { s with ids := fun j r => if j = i then none else s.ids j r }               -- 338
  match q with
  | some q => register s i q                                                            -- 341-342
  | none => s

/-- 978 with 1040-1049: the sequence is taken out of the table of this sequencer; its own table of ids keeps the id. -/
def exit (s : State) (i q : Nat) : State :=
  let r := getId s i q
  { r.1 with reg := fun p k => if p = q ∧ k = r.2 then none else r.1.reg p k }

/-- uvm_sequencer_param_base.py 309-324 with `m_find_sequence` 1069-1071. -/
def response (s : State) (q : Nat) (id : Int) : Out :=
  if id = -1 then .fatal
  else match s.reg q id with
    | some i => .to i
    | none => .lost

def step (s : State) : Op → State × Out
  | .start i q => (start s i q, .unit)
  | .register i q => (register s i q, .unit)
  | .send i q => ((getId s i q).1, .sent (getId s i q).2)
  | .exit i q => (exit s i q, .unit)
  | .response q id => (s, response s q id)

def init : State := {}

end Verif.SqrIds
