/-!
# Model of the semaphore

src/uvm/base/sv.py 515-547 (`semaphore`), over cocotb's `Lock` (not in the repository): `acquire` takes a free lock at once, else queues; `release` hands the
lock to the first in the queue, or frees it; the task that got the lock continues later, other tasks may run before.

A history is a list of events in the order in which the scheduler runs them.  `resume` is the continuation of the `get` that was granted the lock.  The code
between two awaits runs without interruption.
-/
namespace Verif.Semaphore

/-- The semaphore; `held`: the lock is taken; `waiting`: the queue of the lock; `granted`: the task that was given the lock and has not continued yet. -/
structure Sem where
  max : Int
  count : Int
  held : Bool := false
  locked : Bool := false
  waiting : List (Nat × Int) := []
  granted : Option (Nat × Int) := none

/-- 517-521. -/
def create (n : Int) : Sem := { max := n, count := n }

/-- What a call returns or does at once. -/
inductive Out where
  | got | queued | raised | refused | done
deriving DecidableEq, Repr

/-- 524-534: `get(k)` by task `t`, up to its first await. -/
def get (s : Sem) (t : Nat) (k : Int) : Sem × Out :=
  if s.count > k then ({ s with count := s.count - k }, .got)
  else if k > s.max then (s, .raised)
  else if s.held then ({ s with waiting := s.waiting ++ [(t, k)] }, .queued)
  else ({ s with held := true, granted := some (t, k) }, .queued)

/-- 532-534: the rest of `get` after the lock was acquired. -/
def resume (s : Sem) : Sem × Out := match s.granted with
  | some (_, k) => ({ s with granted := none, locked := true, count := s.count - k }, .got)
  | none => (s, .done)

/-- The lock is released. -/
def release (s : Sem) : Sem := match s.waiting with
  | w :: ws => { s with waiting := ws, granted := some w }
  | [] => { s with held := false }

/-- 536-541: `put(k)`. -/
def put (s : Sem) (k : Int) : Sem :=
  if s.count < s.max then
    let s := { s with count := s.count + k }
    if s.locked then release { s with locked := false } else s
  else s

/-- 543-547: `try_get(k)`. -/
def tryGet (s : Sem) (k : Int) : Sem × Out :=
  if s.count ≥ k then ({ s with count := s.count - k }, .got) else (s, .refused)

/-- Events: calls by task `t`. -/
inductive Ev where
  | get (t : Nat) (k : Int) | resume | put (t : Nat) (k : Int) | tryGet (t : Nat) (k : Int)
deriving DecidableEq, Repr

/-- One event: the semaphore, the task that obtained tokens by it and how many. -/
def step (s : Sem) : Ev → Sem × Option (Nat × Int)
  | .get t k => ((get s t k).1, if (get s t k).2 = .got then some (t, k) else none)
  | .resume => ((resume s).1, s.granted)
  | .put _ k => (put s k, none)
  | .tryGet t k => ((tryGet s k).1, if (tryGet s k).2 = .got then some (t, k) else none)

end Verif.Semaphore
