import Verif.Model.TlmFifo
import Verif.Util.Machine
/-! # Reading a TLM FIFO history from its observable effects -/
namespace Verif.TlmFifo
variable {α : Type}

/-- The transactions a call put into the FIFO: a completed `put`, a `try_put` that returned True, an analysis write. -/
def putBy : Out α → List α
  | .putDone _ x => [x]
  | .tryPut x true => [x]
  | .written x true => [x]
  | _ => []

/-- The transactions a call took out of the FIFO: a completed `get`, a `try_get` that returned True (it appends the
transaction at the end of the caller's list), a `flush`. -/
def takenBy : Out α → List α
  | .gotten _ x => [x]
  | .tryGet true l => l.getLast?.toList
  | .flushed xs _ => xs
  | _ => []

/-- Ordinary use of the non-blocking and flushing calls: `try_get` gets an empty list, nobody flushes. -/
def PlainGet : Ev α → Prop
  | .tryGet l => l = []
  | .flush => False
  | _ => True

/-- Nobody is cancelled. -/
def NoKill : Ev α → Prop
  | .kill _ => False
  | _ => True

/-- The coroutine a call belongs to is numbered below `N`. -/
def Below (N : Nat) : Ev α → Prop
  | .callPut t _ | .callGet t | .callPeek t _ | .resume t | .kill t => t < N
  | _ => True

/-- Is this coroutine inside a blocking `get`? -/
def inGet : Mailbox.Task α → Bool
  | .getWait | .getWoken => true
  | _ => false

/-- How many of the coroutines `0 .. N-1` are inside a blocking `get`. -/
def getters (s : State α) (N : Nat) : Nat := ((List.range N).filter (fun u => inGet (s.m.tasks u))).length

/-- Would a `try_put` made now succeed? -/
def tryPutOk (s : State α) (x : α) : Prop := (step s (.tryPut x)).2 = .tryPut x true

end Verif.TlmFifo
