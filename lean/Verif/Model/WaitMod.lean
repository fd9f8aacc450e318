/-!
# Model of waiting for a resource to change: `UVMResourceBase.wait_modified` (src/uvm/base/uvm_resource.py), `wait` (src/uvm/base/sv.py)

A step is a call made by test code or the scheduler resuming a coroutine, as in `Verif.Model.Event`.  The event `event_modified` is a flag; `set` makes all
coroutines that wait runnable; waiting for a raised flag suspends until the next scheduling round only.
-/
namespace Verif.WaitMod

/-- Where a coroutine is: not in the call, suspended, runnable (in line 579 of sv.py). -/
inductive Task where
  | idle | waiting | ready
deriving DecidableEq, Repr

/-- uvm_resource.py 240-256. -/
structure State (V : Type) where
  val : V
  readOnly : Bool := false
  modified : Bool := false
  fired : Bool := false
  tasks : Nat → Task := fun _ => .idle

inductive Op (V : Type) where
  | write (v : V)
  | setReadOnly (b : Bool)
  | wait (t : Nat)
  | resume (t : Nat)
  | cancel (t : Nat)
deriving DecidableEq, Repr

/-- What a step is seen to do. -/
inductive Out (V : Type) where
  | nothing | changed (v : V) | returned (t : Nat)
deriving DecidableEq, Repr

variable {V : Type} [DecidableEq V]

def put (s : State V) (t : Nat) (x : Task) : State V := { s with tasks := fun u => if u = t then x else s.tasks u }

/-- sv.py 575-580 from the head of the loop, and uvm_resource.py 319. -/
def loop (s : State V) (t : Nat) : State V × Out V :=
  if s.modified then ({ put s t .idle with modified := false }, .returned t)
  else if s.fired then (put s t .ready, .nothing)
  else (put s t .waiting, .nothing)

def step (s : State V) : Op V → State V × Out V
  | .write v =>                                                        -- 810-825
    if s.readOnly then (s, .nothing)
    else if s.val = v then (s, .nothing)
    else ({ s with val := v, modified := true, fired := true, tasks := fun u => if s.tasks u = .waiting then .ready else s.tasks u }, .changed v)
  | .setReadOnly b => ({ s with readOnly := b }, .nothing)
  | .wait t => if s.tasks t = .idle then loop s t else (s, .nothing)    -- 315-318
  | .resume t => if s.tasks t = .ready then loop { s with fired := false } t else (s, .nothing)    -- sv.py 580
  | .cancel t => (put s t .idle, .nothing)

/-- A history with what was seen, in order. -/
def run (s : State V) : List (Op V) → State V × List (Out V)
  | [] => (s, [])
  | o :: os =>
    let r := step s o
    let q := run r.1 os
    (q.1, r.2 :: q.2)

end Verif.WaitMod
