/-!
# Model of `UVMMailbox` (src/uvm/base/uvm_mailbox.py) under every schedule

A transition system.  Any number of coroutines (identified by `Nat`) call the blocking methods;
one transition is one atomic segment, from a call or a resumption up to
the next suspension or return (cooperative scheduling).  The non-blocking methods are one
transition each.  `kill` is the cancellation of a suspended coroutine.
Debug output (`_uvm_debug`) is not modelled.
-/
namespace Verif.Mailbox

/-- Where a coroutine is.  `...Wait` = suspended in `Event.wait()` with no wake-up pending,
`...Woken` = the event it waits for was set, so the scheduler will resume it. -/
inductive Task (α : Type) where
  | idle
  | putWait (x : α) | putWoken (x : α)
  | getWait | getWoken
  | peekWait | peekWoken
deriving DecidableEq, Repr

/-- `maxSize`, `queue` (`m_queue`), the two event flags (lines 41-45) and the coroutines. -/
structure State (α : Type) where
  maxSize : Int
  queue : List α
  readFired : Bool
  writeFired : Bool
  tasks : Nat → Task α

/-- `UVMMailbox.__init__` 40-46. -/
def init {α} (size : Int) : State α := ⟨size, [], false, false, fun _ => .idle⟩

/-- What a scheduler step may be. -/
inductive Ev (α : Type) where
  | callPut (t : Nat) (x : α) | callGet (t : Nat) | callPeek (t : Nat)
  | resume (t : Nat) | kill (t : Nat)
  | tryPut (x : α) | tryGet | tryPeek | num
deriving DecidableEq, Repr

/-- Observable effect of a step. -/
inductive Out (α : Type) where
  | nothing                       -- event not enabled / killed
  | blocked
  | putDone (t : Nat) (x : α) | gotten (t : Nat) (x : α)
  | peeked (t : Nat) (x : Option α)
  | tryPut (x : α) (ok : Bool) | tryGet (x : Option α) | tryPeek (x : Option α)
  | num (b : Bool)
  | raised
deriving DecidableEq, Repr

variable {α : Type}

/-- uvm_mailbox.py 146-147. -/
def canGet (s : State α) : Bool := s.queue.length > 0

/-- uvm_mailbox.py 149-152. -/
def canPut (s : State α) : Bool :=
  if s.maxSize ≤ 0 then true else (s.queue.length : Int) < s.maxSize

def setTask (s : State α) (t : Nat) (k : Task α) : State α :=
  { s with tasks := fun u => if u = t then k else s.tasks u }

/-- cocotb `Event.set()` on the write event: fired, all waiters become runnable. -/
def setWrite (s : State α) : State α :=
  { s with writeFired := true, tasks := fun u => match s.tasks u with
      | .getWait => .getWoken
      | .peekWait => .peekWoken
      | k => k }

/-- cocotb `Event.set()` on the read event. -/
def setRead (s : State α) : State α :=
  { s with readFired := true, tasks := fun u => match s.tasks u with
      | .putWait x => .putWoken x
      | k => k }

/-- `await m_read_event.wait()`: returns at once (here: stays runnable) if the event is fired, else suspends. -/
def waitRead (s : State α) (t : Nat) (x : α) : State α :=
  setTask s t (if s.readFired then .putWoken x else .putWait x)

def waitWrite (s : State α) (t : Nat) (peek : Bool) : State α :=
  setTask s t (match peek, s.writeFired with
    | false, true => .getWoken
    | false, false => .getWait
    | true, true => .peekWoken
    | true, false => .peekWait)

/-- uvm_mailbox.py 51-61: the loop head of `put`, then the completion. -/
def putLoop (s : State α) (t : Nat) (x : α) : State α × Out α :=
  if canPut s = false then
    (waitRead { s with readFired := false } t x, .blocked)      -- 52-54
  else
    let s := { s with queue := s.queue ++ [x] }                  -- 58
    (setTask (setWrite s) t .idle, .putDone t x)                 -- 60

/-- uvm_mailbox.py 65-83: the loop head of `get`, then the completion. -/
def getLoop (s : State α) (t : Nat) : State α × Out α :=
  if canGet s = false then
    (waitWrite { s with writeFired := false } t false, .blocked) -- 66-69
  else if canGet s = false then (setTask s t .idle, .raised)     -- 75-77
  else match s.queue with                                         -- 78
    | [] => (setTask s t .idle, .raised)
    | x :: q => (setTask (setRead { s with queue := q }) t .idle, .gotten t x)  -- 79

/-- uvm_mailbox.py 94-97: the tail of `peek`; `front()` is None on an empty queue. -/
def peekTail (s : State α) (t : Nat) : State α × Out α :=
  (setTask s t .idle, .peeked t s.queue.head?)

/-- One scheduler step. -/
def step (s : State α) : Ev α → State α × Out α
  | .callPut t x =>
    match s.tasks t with
    | .idle => putLoop s t x
    | _ => (s, .nothing)
  | .callGet t =>
    match s.tasks t with
    | .idle => getLoop s t
    | _ => (s, .nothing)
  | .callPeek t =>
    match s.tasks t with
    | .idle =>
      if canGet s = false then (waitWrite { s with writeFired := false } t true, .blocked)  -- 88-91
      else peekTail s t
    | _ => (s, .nothing)
  | .resume t =>
    match s.tasks t with
    | .putWoken x => putLoop { s with readFired := false } t x      -- 55-56
    | .getWoken => getLoop { s with writeFired := false } t         -- 70-72
    | .peekWoken => peekTail { s with writeFired := false } t       -- 92
    | _ => (s, .nothing)
  | .kill t => (setTask s t .idle, .nothing)
  | .tryPut x =>                                                     -- 99-108
    if canPut s = true then (setWrite { s with queue := s.queue ++ [x] }, .tryPut x true)
    else (s, .tryPut x false)
  | .tryGet =>                                                       -- 110-126
    if canGet s = true then
      match s.queue with
      | [] => (s, .raised)
      | x :: q => (setRead { s with queue := q }, .tryGet (some x))
    else (s, .tryGet none)
  | .tryPeek =>                                                      -- 128-144
    if canGet s = true then (s, .tryPeek s.queue.head?) else (s, .tryPeek none)
  | .num => (s, .num (decide (s.queue.length > 0)))                  -- 154-155

end Verif.Mailbox
