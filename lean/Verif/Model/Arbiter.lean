/-!
# Model of the arbitration of a sequencer

`src/uvm/seq/uvm_sequencer_base.py`: the arbitration queue, the lock list, the choice of the next request, the removal of a sequence.

A sequence is its instance id together with its chain of parent sequences at the time of the call (`get_parent_sequence`), so chains are
finite (a sequence made its own ancestor would make `is_child` loop).  `process_id.status` of a request is `RUNNING` from its creation
(sv.py 89-91) and nothing assigns it, so the branches for killed and finished processes (693-699, 787-792) are never taken and are left
out.  `is_relevant()` is a function of the sequence (user code; assumed not to change the queues).
-/
namespace Verif.Arbiter

/-- A sequence: `get_inst_id()` and `get_parent_sequence()`. -/
inductive Seq where
  | root (inst : Nat)
  | child (inst : Nat) (parent : Seq)

namespace Seq
def inst : Seq → Nat
  | root i => i
  | child i _ => i
def parent : Seq → Option Seq
  | root _ => none
  | child _ p => some p
end Seq

/-- uvm_sequencer_base.py 82-84. -/
inductive Kind where
  | req | lock | grab
  deriving DecidableEq, Repr

/-- 1450-1460 `uvm_sequence_request`; `grant` is never read. -/
structure Req where
  reqId : Nat
  seqId : Int
  kind : Kind
  seq : Seq
  prio : Int := -1

/-- 140-164: the loop following the parents of `child`. -/
def isChild (parent : Seq) : Seq → Bool
  | .root _ => false
  | .child _ p => if p.inst = parent.inst then true else isChild parent p

/-- 477-502. -/
def isBlocked (locks : List Seq) (s : Seq) : Bool :=
  match locks with
  | [] => false
  | l :: ls => if l.inst ≠ s.inst ∧ isChild l s = false then true else isBlocked ls s

/-- 572-582. -/
def isGrabbed (locks : List Seq) : Bool := locks.length != 0

/-- uvm_object_globals.py 318-323. -/
inductive Mode where
  | fifo | weighted | random | strictFifo | strictRandom | user
  deriving DecidableEq, Repr

/-- 709-713: index of the first request that is not a lock request, the size of the queue if there is none. -/
def leadingLocks : List Req → Nat
  | [] => 0
  | r :: rs => if r.kind ≠ .lock then 0 else leadingLocks rs + 1

/-- 679-740.  With a leading lock request the code slices the queue (717), and `UVMQueue.__getitem__` (uvm_queue.py 139-144) then uses the
class `slice` instead of the argument: `range(slice.start, slice.stop)` is a TypeError.  `false`: raised; the queues are unchanged. -/
def grantQueuedLocks (q : List Req) : Bool := leadingLocks q = 0

/-- Result of `m_choose_next_request`. -/
inductive Choice where
  | sel (i : Int)     -- -1: nothing to select
  | raised            -- the exception of `grant_queued_locks`
  | fatal             -- 894
  deriving DecidableEq, Repr

/-- 795-797: the request may be served. -/
def eligible (locks : List Seq) (rel : Seq → Bool) (r : Req) : Bool :=
  r.kind = .req && !isBlocked locks r.seq && rel r.seq

/-- 786-802 from index `i` on: the first eligible index in FIFO mode (`.inl`), otherwise the list of eligible indices. -/
def scan (mode : Mode) (locks : List Seq) (rel : Seq → Bool) (i : Nat) (avail : List Nat) : List Req → Nat ⊕ List Nat
  | [] => .inr avail
  | r :: rs =>
    if r.kind = .req then
      if isBlocked locks r.seq = false then
        if rel r.seq = true then
          if mode = .fifo then .inl i else scan mode locks rel (i + 1) (avail ++ [i]) rs
        else scan mode locks rel (i + 1) avail rs
      else scan mode locks rel (i + 1) avail rs
    else scan mode locks rel (i + 1) avail rs

/-- 816-820: `for i in range(n)` over the available indices, deleting blocked ones (the `i -= 1` has no effect on a Python `for`).
Reading past the end yields 0 (uvm_queue.py 93-97), deleting past the end does nothing (176-180). -/
def recheck (locks : List Seq) (q : List Req) : List Nat → List Nat → List Nat
  | [], avail => avail
  | i :: is, avail =>
    match q[avail.getD i 0]? with
    | some r => if isBlocked locks r.seq = true then recheck locks q is (avail.eraseIdx i) else recheck locks q is avail
    | none => recheck locks q is avail

/-- `range(n)`. -/
def range (n : Nat) : List Nat := List.range n

/-- 805-895, given the available indices; `rnd n` is the number `random.randint(0, n)` returns (850-852). -/
def pick (mode : Mode) (locks : List Seq) (q : List Req) (rnd : Nat → Nat) (avail : List Nat) : Choice :=
  if mode = .fifo then .sel (-1)
  else if avail.length < 1 then .sel (-1)
  else if avail.length = 1 then .sel (avail.getD 0 0)
  else
    let avail := if locks.length > 0 then recheck locks q (range avail.length) avail else avail
    if avail.length < 1 then .sel (-1)                   -- 821-822 (only reachable after the re-check)
    else if avail.length = 1 then .sel (avail.getD 0 0)  -- 823-824
    else if mode = .random then .sel (avail.getD (rnd (avail.length - 1)) 0)
    else .fatal

/-- 765-895 `m_choose_next_request`. -/
def choose (mode : Mode) (locks : List Seq) (rel : Seq → Bool) (rnd : Nat → Nat) (q : List Req) : Choice :=
  if grantQueuedLocks q = false then .raised
  else match scan mode locks rel 0 [] q with
    | .inl i => .sel i
    | .inr avail => pick mode locks q rnd avail

/-- 947-959: the do-while loop over the arbitration queue at index `i`, as recursion on what is left of the queue: what precedes `i` was
kept.  `del` is the condition 949-950. -/
def removeLoop {α} (del : α → Bool) : List α → List α
  | [] => []
  | r :: rs => if del r then removeLoop del rs else r :: removeLoop del rs

/-- 949-950. -/
def reqMatches (s : Seq) (seqId : Int) (r : Req) : Bool := r.seqId == seqId || isChild s r.seq

/-- 965-966. -/
def lockMatches (s l : Seq) : Bool := l.inst == s.inst || isChild s l

/-- 937-978 `remove_sequence_from_queues`: the new arbitration queue and lock list; `seqId` is the id of `s` at this sequencer, -1 if it
has none (944).  (978 unregisters the sequence: see Model/Sequencer.) -/
def removeSequence (s : Seq) (seqId : Int) (q : List Req) (locks : List Seq) : List Req × List Seq :=
  (removeLoop (reqMatches s seqId) q, removeLoop (lockMatches s) locks)

/-- 989-991 `kill_sequence`: after the removal it calls `sequence_ptr.m_kill()`, a method that does not exist (uvm_sequence_base.py 936-948
is commented out): AttributeError.  The Bool: returned without exception. -/
def killSequence (s : Seq) (seqId : Int) (q : List Req) (locks : List Seq) : (List Req × List Seq) × Bool :=
  (removeSequence s seqId q locks, false)

/-- 565-569 `stop_sequences` with 1064-1067: the first *key* of the table of registered sequences (an int) is passed to `kill_sequence`,
whose first statement calls a method on it: AttributeError, nothing removed.  The Bool: returned without exception. -/
def stopSequences (registered : List Int) : Bool := registered.isEmpty

end Verif.Arbiter
