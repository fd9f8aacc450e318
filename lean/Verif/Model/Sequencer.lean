import Verif.Util.Machine
import Verif.Util.PyFlag
import Verif.Model.Arbiter
/-!
# Model of a sequencer between its sequences and its driver

`src/uvm/seq/uvm_sequencer_base.py` (B), `src/uvm/seq/uvm_sequencer_param_base.py` (P), `src/uvm/seq/uvm_sequencer.py` (S), and of
`src/uvm/seq/uvm_sequence_base.py` the calls `start_item`/`finish_item`.  One sequencer, one driver coroutine, any number of sequence
coroutines (numbers); one transition is one atomic segment of a coroutine, so any interleaving is a list of operations.

Sequences are identified by their instance id and carry their parents (`Arbiter.Seq`).  Items are numbers; the transaction id an item has
when it is sent is a parameter.  A fatal report raises (uvm_root.py 357-358).  The request FIFO is a TLM FIFO of size 1
(uvm_tlm_fifos.py) on a mailbox (uvm_mailbox.py).  The event `m_event_value_changed` wakes all its waiters; `wait` (sv.py 571-580) clears
it after waking and tests again.  Simplifications: `pre_do`, `mid_do`, `post_do`, recording and re-randomisation are left out;
`is_relevant` is a function of the sequence.
-/
namespace Verif.Sequencer
open Arbiter

/-- A request item in the FIFO: its name, `get_sequence_id()`, `get_transaction_id()`. -/
structure Item where
  name : Nat
  seqId : Int
  tr : Int
  deriving DecidableEq, Repr

/-- A sequence coroutine: not inside a sequencer call, or suspended in `wait_for_grant` (B 907-915: `size` is the local
`lock_arb_size`), or suspended in `wait_for_item_done` (B 466-475).  `woken`: the event was set since it suspended. -/
inductive Task where
  | idle
  | grant (s : Seq) (req : Nat) (size : Nat) (woken : Bool)
  | done (id : Int) (woken : Bool)

/-- The call the driver is executing. -/
inductive Call where
  | getNext | peek | get
  deriving DecidableEq, Repr

/-- The driver coroutine: idle; in `wait_for_sequences` of `m_select_sequence` (B 750); in `m_wait_arb_not_equal` (B 1115); in the blocking
peek of the FIFO; in the first/second `wait_for_sequences` of `try_next_item` (S 139, 157). -/
inductive Drv where
  | idle
  | nba (c : Call)
  | avail (c : Call) (woken : Bool)
  | peeking (c : Call) (woken : Bool)
  | tryNba
  | tryNba2
  deriving DecidableEq, Repr

structure State where
  q : List Req := []                        -- arb_sequence_q
  locks : List Seq := []                    -- lock_list
  /-- `arb_completed`: the request ids; the instance id beside it is not in the code (the value is 1), it is there for the proofs. -/
  completed : List (Nat × Nat) := []
  gReq : Nat := 0                            -- g_request_id
  gSeq : Int := 1                            -- g_sequence_id
  lockArb : Nat := 0                         -- m_lock_arb_size
  arb : Nat := 0                             -- m_arb_size
  fired : Bool := false                      -- m_event_value_changed
  fifo : List Item := []                     -- m_req_fifo
  requested : PyFlag := .false_              -- sequence_item_requested
  nextCalled : PyFlag := .false_             -- get_next_item_called
  waitSeq : Int := 0                         -- m_wait_for_item_sequence_id
  waitTr : Int := 0                          -- m_wait_for_item_transaction_id
  sem : Nat → Int := fun _ => 0              -- m_wait_for_grant_semaphore of each sequence
  nextTr : Nat → Int := fun _ => 1           -- m_next_transaction_id of each sequence
  ids : Nat → Int := fun _ => -1             -- m_sqr_seq_ids of each sequence for this sequencer; -1: none
  reg : List (Int × Nat) := []               -- reg_sequences
  tasks : Nat → Task := fun _ => .idle
  drv : Drv := .idle
  numLast : Int := 1                         -- m_num_last_reqs
  lastBuf : List Item := []                  -- m_last_req_buffer
  numSent : Nat := 0                         -- m_num_reqs_sent
  numRsps : Nat := 0                         -- m_num_rsps_received

inductive Op where
  | start (s : Seq)                                   -- registration done by UVMSequenceBase.start
  | startItem (t : Nat) (s : Seq) (prio : Int) (lock : Bool)   -- wait_for_grant
  | send (s : Seq) (x : Nat) (tr : Int)               -- send_request
  | finishItem (t : Nat) (s : Seq) (x : Nat) (tr : Int)  -- send_request; wait_for_item_done
  | resume (t : Nat) | kill (t : Nat)
  | exit (s : Seq)                                    -- m_sequence_exiting
  | getNext | peek | get | tryNext | itemDone | drvStep
  | putResponse (seqId : Int)
  | setNumLast (n : Int)
  | stop                                              -- stop_sequences

/-- Observable effects. -/
inductive Out where
  | chose (inst : Nat)                 -- arbitration selected a request of this sequence
  | granted (t : Nat) (inst : Nat)     -- wait_for_grant returned
  | sent (inst : Nat) (x : Item) (auto : Bool)   -- send_request put the item into the FIFO; auto: transaction id assigned
  | waiting (t : Nat)                  -- wait_for_item_done entered
  | finished (t : Nat) (id : Int)      -- wait_for_item_done returned
  | delivered (x : Option Item)        -- the driver's call returned this item (none: Python None)
  | done (x : Item)                    -- item_done took this item from the FIFO
  | nothing                            -- try_next_item returned without item
  | limit (n : Int)
  | routed (inst : Nat) | rspDropped
  | error                              -- an error report
  | fatal                              -- a fatal report: exception
  | raised                             -- another exception
  deriving DecidableEq, Repr

def upd {β} (f : Nat → β) (i : Nat) (v : β) : Nat → β := fun j => if j = i then v else f j

def wakeTask : Task → Task
  | .idle => .idle
  | .grant s r n _ => .grant s r n true
  | .done id _ => .done id true

def wakeDrv : Drv → Drv
  | .avail c _ => .avail c true
  | d => d

/-- B 1083-1085: `set_value` sets the event (the attribute is assigned by the caller here). -/
def setEvent (s : State) : State :=
  { s with fired := true, tasks := fun t => wakeTask (s.tasks t), drv := wakeDrv s.drv }

/-- B 1073-1077. -/
def updateLists (s : State) : State := setEvent { s with lockArb := s.lockArb + 1 }

/-- B 1034-1036. -/
def assignId (s : State) (i : Nat) : State :=
  { s with ids := upd s.ids i s.gSeq, gSeq := s.gSeq + 1, reg := s.reg.filter (·.1 ≠ s.gSeq) ++ [(s.gSeq, i)] }

/-- B 1023-1037 `m_register_sequence`. -/
def register (s : State) (i : Nat) : State := if s.ids i > 0 then s else assignId s i

/-- uvm_sequence_base.py 336-342: the ids of an earlier run are forgotten, then the sequence is registered. -/
def startSeq (s : State) (i : Nat) : State := register { s with ids := upd s.ids i (-1) } i

/-- B 411-432: the requests are appended. -/
def pushReqs (s : State) (sq : Seq) (prio : Int) (lock : Bool) : State :=
  if lock then
    { s with q := s.q ++ [⟨s.gReq, s.ids sq.inst, .lock, sq, 0⟩, ⟨s.gReq + 1, s.ids sq.inst, .req, sq, prio⟩], gReq := s.gReq + 2 }
  else { s with q := s.q ++ [⟨s.gReq, s.ids sq.inst, .req, sq, prio⟩], gReq := s.gReq + 1 }

/-- B 908-914: one round of the loop in `m_wait_for_arbitration_completed`, and B 442 at its end. -/
def grantLoop (s : State) (t : Nat) (sq : Seq) (r : Nat) : State × List Out :=
  if s.completed.any (·.1 == r) then
    ({ s with completed := s.completed.filter (·.1 ≠ r), tasks := upd s.tasks t .idle,
              sem := upd s.sem sq.inst (s.sem sq.inst + 1) }, [.granted t sq.inst])
  else ({ s with tasks := upd s.tasks t (.grant sq r s.lockArb s.fired) }, [])

/-- B 382-442 `wait_for_grant`. -/
def waitForGrant (s : State) (t : Nat) (sq : Seq) (prio : Int) (lock : Bool) : State × List Out :=
  let s' := updateLists (pushReqs (register s sq.inst) sq prio lock)
  grantLoop s' t sq (s'.gReq - 1)

/-- P 350-362 `m_last_req_push_front`. -/
def pushHist (num : Int) (buf : List Item) (x : Item) : List Item :=
  if num = 0 then buf
  else if (buf.length : Int) = num then x :: buf.dropLast else x :: buf

/-- P 180-182: `while len(buffer) > n: pop last` (and the buffer is not empty).  `k`: bound of
the number of rounds, the length of the buffer. -/
def shrinkLoop (n : Int) : Nat → List Item → List Item
  | 0, buf => buf
  | k + 1, buf => if (buf.length : Int) > n then shrinkLoop n k buf.dropLast else buf

def shrink (n : Int) (buf : List Item) : List Item := shrinkLoop n buf.length buf

/-- P 173-185 `set_num_last_reqs`. -/
def setNumLast (s : State) (n : Int) : State :=
  let n := if n > 1024 then 1024 else n
  { s with lastBuf := shrink n s.lastBuf, numLast := n }

/-- P 118-126: the item as it is put into the FIFO. -/
def mkItem (s : State) (i : Nat) (x : Nat) (tr : Int) : Item :=
  ⟨x, s.ids i, if tr = -1 then s.nextTr i else tr⟩

/-- P 111-126: what `send_request` changes before the FIFO. -/
def prepare (s : State) (i : Nat) (x : Nat) (tr : Int) : State :=
  { s with sem := upd s.sem i (s.sem i - 1),
           nextTr := if tr = -1 then upd s.nextTr i (s.nextTr i + 1) else s.nextTr,
           lastBuf := pushHist s.numLast s.lastBuf (mkItem s i x tr) }

def wakePeek : Drv → Drv
  | .peeking c _ => .peeking c true
  | d => d

/-- P 92-133 `send_request`; the Bool: returned normally. -/
def sendRequest (s : State) (i : Nat) (x : Nat) (tr : Int) : State × List Out × Bool :=
  if s.sem i < 1 then (s, [.fatal], false)
  else if s.fifo.length ≥ 1 then (prepare s i x tr, [.fatal], false)                     -- 128-129
  else if grantQueuedLocks s.q = false then                                               -- 133
    ({ prepare s i x tr with fifo := s.fifo ++ [mkItem s i x tr], drv := wakePeek s.drv, numSent := s.numSent + 1 },
      [.sent i (mkItem s i x tr) (tr == -1), .raised], false)
  else
    ({ prepare s i x tr with fifo := s.fifo ++ [mkItem s i x tr], drv := wakePeek s.drv, numSent := s.numSent + 1 },
      [.sent i (mkItem s i x tr) (tr == -1)], true)

/-- B 462-469 `wait_for_item_done` with the transaction id -1 (`finish_item`, uvm_sequence_base.py 1056). -/
def waitDone (s : State) (t : Nat) (id : Int) : State × List Out :=
  if id = -1 then ({ s with waitSeq := -1, waitTr := -1 }, [.waiting t, .finished t id])
  else ({ s with waitSeq := -1, waitTr := -1, tasks := upd s.tasks t (.done id s.fired) }, [.waiting t])

/-- S 120-122, 213-215, 230-231: the end of the three driver calls: the item has been seen. -/
def deliver (s : State) (c : Call) (x : Option Item) : State × List Out :=
  match c with
  | .getNext => ({ s with drv := .idle }, [.delivered x])
  | .peek => ({ s with drv := .idle }, [.delivered x])
  | .get =>
    -- item_done() (S 214), as in `itemDone` below
    match s.fifo with
    | [] => ({ s with drv := .idle, requested := .false_, nextCalled := .false_ }, [.fatal])
    | y :: ys =>
      let s' := { s with drv := .idle, requested := .false_, nextCalled := .false_, fifo := ys, waitSeq := y.seqId, waitTr := y.tr }
      if grantQueuedLocks s.q = false then (s', [.done y, .raised]) else (s', [.done y, .delivered x])

/-- S 120-121 / 212 / 230. -/
def setFlags (s : State) (c : Call) : State :=
  match c with
  | .getNext => { s with requested := .true_, nextCalled := .true_ }
  | .peek => { s with requested := .int1 }
  | .get => { s with requested := .int1 }

/-- The driver's call after the selection: set the flags, peek (uvm_mailbox.py 86-97). -/
def afterSelect (s : State) (c : Call) : State × List Out :=
  match s.fifo with
  | x :: _ => deliver (setFlags s c) c (some x)
  | [] => ({ setFlags s c with drv := .peeking c false }, [])

/-- B 759-762 and S 149-152: request number `n` of the queue is granted. -/
def grantReq (s : State) (n : Nat) : State × List Out :=
  match s.q[n]? with
  | none => (s, [.raised])
  | some r =>
    (updateLists { s with completed := s.completed.filter (·.1 ≠ r.reqId) ++ [(r.reqId, r.seq.inst)], q := s.q.eraseIdx n },
      [.chose r.seq.inst])

variable (mode : Mode) (rel : Seq → Bool) (rnd : Nat → Nat)

/-- B 1107-1111: a request that is not blocked but not relevant. -/
def irrelevant (locks : List Seq) (r : Req) : Bool := r.kind = .req && !isBlocked locks r.seq && !rel r.seq

/-- B 1105-1120 `m_wait_for_available_sequence`.  With an irrelevant request the code joins a coroutine object that was never
started (1155-1158, sv.py 307): AttributeError. -/
def waitAvail (s : State) (c : Call) : State × List Out :=
  let s' := setEvent { s with arb := s.lockArb }
  if s.q.any (irrelevant rel s.locks) then ({ s' with drv := .idle }, [.raised])
  else ({ s' with drv := .avail c s'.fired }, [])

/-- S 115 (`is False`), 210, 225 (`== 0`): the call first selects a sequence. -/
def needsSelect (s : State) : Call → Bool
  | .getNext => s.requested == .false_
  | _ => !s.requested.truthy

/-- S 98-122, 203-215, 218-231: entry of a driver call. -/
def drvCall (s : State) (c : Call) : State × List Out :=
  -- 111-113: `is True`
  let e := if c = .getNext ∧ s.nextCalled = .true_ then [Out.error] else []
  if needsSelect s c then ({ s with drv := .nba c }, e)
  else ((afterSelect s c).1, e ++ (afterSelect s c).2)

/-- S 166-189 `item_done` (without response). -/
def itemDone (s : State) : State × List Out :=
  match s.fifo with
  | [] => ({ s with requested := .false_, nextCalled := .false_ }, [.fatal])
  | y :: ys =>
    let s' := { s with requested := .false_, nextCalled := .false_, fifo := ys, waitSeq := y.seqId, waitTr := y.tr }
    if grantQueuedLocks s.q = false then (s', [.done y, .raised]) else (s', [.done y])

/-- The driver coroutine continues. -/
def drvStep (s : State) : State × List Out :=
  match s.drv with
  | .idle => (s, [])
  | .nba c =>                                                     -- B 751-762
    match choose mode s.locks rel rnd s.q with
    | .raised => ({ s with drv := .idle }, [.raised])
    | .fatal => ({ s with drv := .idle }, [.fatal])
    | .sel i =>
      if i = -1 then waitAvail rel s c
      else
        let g := grantReq s i.toNat
        let a := afterSelect g.1 c
        (a.1, g.2 ++ a.2)
  | .avail c true =>                                              -- sv.py 575-580 and B 749
    if s.arb ≠ s.lockArb then ({ s with fired := false, drv := .nba c }, [])
    else ({ s with fired := false, drv := .avail c false }, [])
  | .avail _ false => (s, [])
  | .peeking c true => deliver s c s.fifo.head?                   -- uvm_mailbox.py 92-97
  | .peeking _ false => (s, [])
  | .tryNba =>                                                    -- S 142-157
    match choose mode s.locks rel rnd s.q with
    | .raised => ({ s with drv := .idle }, [.raised])
    | .fatal => ({ s with drv := .idle }, [.fatal])
    | .sel i =>
      if i = -1 then ({ s with drv := .idle }, [.nothing])
      else
        let g := grantReq s i.toNat
        ({ g.1 with requested := .true_, nextCalled := .int1, drv := .tryNba2 }, g.2)
  | .tryNba2 =>                                                   -- S 160-164
    match s.fifo with
    | x :: _ => ({ s with drv := .idle }, [.delivered (some x)])
    | [] => ({ s with drv := .idle }, [.error, .nothing])

/-- B 980-986 and 978. -/
def exitSeq (s : State) (sq : Seq) : State :=
  let r := removeSequence sq (s.ids sq.inst) s.q s.locks
  let s' := { s with q := r.1, locks := r.2, reg := s.reg.filter (·.1 ≠ s.ids sq.inst) }
  -- 955, 971: every removal calls m_update_lists
  let n := (s.q.length - r.1.length) + (s.locks.length - r.2.length)
  if n = 0 then s' else setEvent { s' with lockArb := s.lockArb + n }

/-- S 78-94 `stop_sequences` (the base class part raises if a sequence is registered: `Arbiter.stopSequences`). -/
def stop (s : State) : State × List Out :=
  if stopSequences (s.reg.map (·.1)) = false then (s, [.raised])
  else ({ s with requested := .int0, nextCalled := .int0, fifo := [] }, [])

/-- P 294-324 `put_response` (the response itself is stored by the sequence: Model/Response). -/
def putResponse (s : State) (id : Int) : State × List Out :=
  if id = -1 then ({ s with numRsps := s.numRsps + 1 }, [.fatal])
  else match s.reg.find? (·.1 == id) with
    | some p => ({ s with numRsps := s.numRsps + 1 }, [.routed p.2])
    | none => ({ s with numRsps := s.numRsps + 1 }, [.rspDropped])

def step (s : State) : Op → State × List Out
  | .start sq => (startSeq s sq.inst, [])
  | .startItem t sq prio lock =>
    match s.tasks t with
    | .idle => waitForGrant s t sq prio lock
    | _ => (s, [])
  | .send sq x tr => ((sendRequest s sq.inst x tr).1, (sendRequest s sq.inst x tr).2.1)
  | .finishItem t sq x tr =>
    match s.tasks t with
    | .idle =>
      let r := sendRequest s sq.inst x tr
      if r.2.2 then
        let w := waitDone r.1 t (r.1.ids sq.inst)
        (w.1, r.2.1 ++ w.2)
      else (r.1, r.2.1)
    | _ => (s, [])
  | .resume t =>
    match s.tasks t with
    | .grant sq r n true =>
      if n ≠ s.lockArb then grantLoop { s with fired := false } t sq r
      else ({ s with fired := false, tasks := upd s.tasks t (.grant sq r n false) }, [])
    | .done id true =>
      if s.waitSeq = id then ({ s with fired := false, tasks := upd s.tasks t .idle }, [.finished t id])
      else ({ s with fired := false, tasks := upd s.tasks t (.done id false) }, [])
    | _ => (s, [])
  | .kill t => ({ s with tasks := upd s.tasks t .idle }, [])
  | .exit sq => (exitSeq s sq, [])
  | .getNext => if s.drv = .idle then drvCall s .getNext else (s, [])
  | .peek => if s.drv = .idle then drvCall s .peek else (s, [])
  | .get => if s.drv = .idle then drvCall s .get else (s, [])
  | .tryNext =>
    if s.drv = .idle then
      if s.nextCalled.truthy then (s, [.error]) else ({ s with drv := .tryNba }, [])
    else (s, [])
  | .itemDone => if s.drv = .idle then itemDone s else (s, [])
  | .drvStep => drvStep mode rel rnd s
  | .putResponse id => putResponse s id
  | .setNumLast n => (setNumLast s n, [.limit n])
  | .stop => stop s

end Verif.Sequencer
