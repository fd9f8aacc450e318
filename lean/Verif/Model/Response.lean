import Verif.Util.Machine
/-!
# Model of the response queue of a sequence, under every schedule

`src/uvm/seq/uvm_sequence_base.py` 1125-1284 and `src/uvm/base/sv.py` 571-580 (`wait`).  Any number of coroutines (numbers) call
`get_base_response`; one transition is one atomic segment.  `tid` is `get_transaction_id()` of a response.  `UVMSequence.get_response`
(uvm_sequence.py 113-123) only passes the result on.
-/
namespace Verif.Response

/-- Where a coroutine inside `get_base_response` is: `first` = waiting for a non-empty queue (1264-1266), `more n` = waiting for the size of
the queue to differ from `n` (1283-1284).  `woken`: the event it waits for was set, the scheduler will resume it. -/
inductive Task where
  | idle
  | first (id : Int) (woken : Bool)
  | more (id : Int) (n : Nat) (woken : Bool)
  deriving DecidableEq, Repr

/-- 181-191. -/
structure State (α : Type) where
  queue : List α := []
  depth : Int := 8
  errDisabled : Bool := false
  fired : Bool := false
  tasks : Nat → Task := fun _ => .idle

inductive Op (α : Type) where
  | put (x : α) | get (t : Nat) (id : Int) | resume (t : Nat) | kill (t : Nat)
  | clear | setDepth (d : Int) | setErrDisabled (b : Bool)

inductive Out (α : Type) where
  | unit | nothing | blocked
  | stored (x : α)
  | dropped (x : α) (reported : Bool)
  | got (t : Nat) (id : Int) (x : α)
  deriving DecidableEq, Repr

variable {α : Type} (tid : α → Int)

def setTask (s : State α) (t : Nat) (k : Task) : State α :=
  { s with tasks := fun u => if u = t then k else s.tasks u }

/-- cocotb `Event.set()`: fired, all waiters become runnable. -/
def wake : Task → Task
  | .idle => .idle
  | .first id _ => .first id true
  | .more id n _ => .more id n true

def setEvent (s : State α) : State α := { s with fired := true, tasks := fun u => wake (s.tasks u) }

/-- 1275-1281: the first response with this id, removed. -/
def takeId (id : Int) : List α → Option (α × List α)
  | [] => none
  | x :: q => if tid x = id then some (x, q) else (takeId id q).map fun r => (r.1, x :: r.2)

/-- 1268-1284, the queue being non-empty at the first visit: take a response or suspend. -/
def attempt (s : State α) (t : Nat) (id : Int) : State α × Out α :=
  if id = -1 then
    match s.queue with                                                      -- 1269-1271
    | x :: q => (setTask { s with queue := q } t .idle, .got t id x)
    | [] => (setTask s t .idle, .nothing)      -- pop_front on an empty queue raises; never reached, see `C34_refines`
  else
    match takeId tid id s.queue with
    | some (x, q) => (setTask (setEvent { s with queue := q }) t .idle, .got t id x)
    | none => (setTask s t (.more id s.queue.length s.fired), .blocked)     -- 1283-1284; wait() returns at once if fired

/-- 1264-1266: the first `wait`. -/
def start (s : State α) (t : Nat) (id : Int) : State α × Out α :=
  if s.queue.length = 0 then (setTask s t (.first id s.fired), .blocked) else attempt tid s t id

/-- 1228-1240. -/
def put (s : State α) (x : α) : State α × Out α :=
  if s.depth = -1 ∨ (s.queue.length : Int) < s.depth then (setEvent { s with queue := s.queue ++ [x] }, .stored x)
  else (s, .dropped x (s.errDisabled = false))

def step (s : State α) : Op α → State α × Out α
  | .put x => put s x
  | .get t id =>
    match s.tasks t with
    | .idle => start tid s t id
    | _ => (s, .nothing)
  | .resume t =>
    match s.tasks t with
    | .first id true => start tid { s with fired := false } t id                       -- sv.py 575-580: clear, test again
    | .more id n true =>
      if s.queue.length ≠ n then attempt tid { s with fired := false } t id
      else (setTask { s with fired := false } t (.more id n false), .blocked)
    | _ => (s, .nothing)
  | .kill t => (setTask s t .idle, .nothing)
  | .clear => (setEvent { s with queue := [] }, .unit)                                   -- 1218-1226
  | .setDepth d => ({ s with depth := d }, .unit)
  | .setErrDisabled b => ({ s with errDisabled := b }, .unit)

end Verif.Response
