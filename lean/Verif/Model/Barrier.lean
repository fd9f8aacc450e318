import Verif.Model.Event
/-!
# Model of `UVMBarrier` (src/uvm/base/uvm_barrier.py)

The creation of a barrier, and its methods on an object whose attributes are those the constructor means to give it (a subclass that builds the event itself has
them).  The event of the barrier is the one of `Verif.Model.Event`, without callbacks.  Not modelled: `do_print`, `do_copy`, `create`.
-/
namespace Verif.Barrier

/-- What is passed as the name of an event: a string, or the Python set of 49. -/
inductive PyName where
  | str (s : String) | set (l : List String)
deriving DecidableEq, Repr

/-- Python's `s + n`: TypeError for a set. -/
def plus (s : String) : PyName → Option String
  | .str n => some (s ++ n)
  | .set _ => none

/-- uvm_event.py 44-59, 276-286: a new event; its name is appended to those of two cocotb events (55, 59). `none`: TypeError. -/
def newEvent (n : PyName) : Option (Event.State Unit) := do
  let _ ← plus "on_event_" n
  let _ ← plus "value_changed_event_" n
  return Event.init

/-- 50-53 and the event of 49. -/
structure State where
  ev : Event.State Unit
  threshold : Int
  numWaiters : Nat
  autoReset : Bool
  atThreshold : Bool

/-- The attributes of 49-53, the event having a string as its name. -/
def made (threshold : Int) : State := ⟨Event.init, threshold, 0, true, false⟩

/-- 47-53: `UVMBarrier(name, threshold)`. -/
def create (name : String) (threshold : Int) : Option State := do
  let ev ← newEvent (.set ["barrier_", name])                                   -- 49
  return { made threshold with ev := ev }

/-- Calls; `t` names the calling process. -/
inductive Op where
  | waitFor (t : Nat) | reset (wakeup : Bool) | setAutoReset (v : Bool) | setThreshold (n : Int) | cancel
  | resume (t : Nat) | kill (t : Nat)
deriving DecidableEq, Repr

/-- Effects: a process got through, was suspended, or neither. -/
inductive Out where
  | passed (t : Nat) | blocked (t : Nat) | nothing
deriving DecidableEq, Repr

/-- The event has no callbacks, so what they answer does not matter. -/
def noCbs : Nat → Option Int := fun _ => none

/-- One step of the event. -/
def evStep (s : State) (o : Event.Op Unit) : State := { s with ev := (Event.step noCbs s.ev o).1 }

/-- 86-93: `reset`. The time of the trigger is not used. -/
def reset (s : State) (wakeup : Bool) : State :=
  let s := { s with atThreshold := false }
  let s := if s.numWaiters ≠ 0 then evStep s (if wakeup then .trigger none 0 else .reset false) else s
  { s with numWaiters := 0 }

/-- 62-74: `wait_for`. `m_trigger` is an `async` method and is called without `await` (71), so none of it (164-167) runs. -/
def waitFor (s : State) (t : Nat) : State × Out :=
  if s.atThreshold then (s, .passed t)
  else
    let s := { s with numWaiters := s.numWaiters + 1 }
    if s.threshold ≤ s.numWaiters then
      (if s.autoReset = false then { s with atThreshold := true } else s, .passed t)
    else (evStep s (.waitTrigger t false), .blocked t)

/-- The end of a `wait_for` in which the process was suspended (74). -/
def outOf (t : Nat) : Event.Out Unit → Out
  | .returned .. => .passed t
  | _ => .nothing

/-- One step. Calls by a process that is already inside `wait_for` are not possible and change nothing. -/
def step (s : State) : Op → State × Out
  | .waitFor t => if s.ev.tasks t ≠ .idle then (s, .nothing) else waitFor s t
  | .reset w => (reset s w, .nothing)
  | .setAutoReset v => ({ s with atThreshold := false, autoReset := v }, .nothing)                                      -- 106-108
  | .setThreshold n =>                                                                                                  -- 123-126
    let s := { s with threshold := n }
    (if n ≤ s.numWaiters then reset s true else s, .nothing)
  | .cancel =>                                                                                                          -- 149-151
    let s := evStep s .cancel
    ({ s with numWaiters := s.ev.numWaiters }, .nothing)
  | .resume t => (evStep s (.resume t), outOf t (Event.step noCbs s.ev (.resume t)).2)
  | .kill t => (evStep s (.kill t), .nothing)

end Verif.Barrier
