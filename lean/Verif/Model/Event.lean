import Verif.Util.Machine
/-!
# Model of `UVMEventBase` / `UVMEvent` (src/uvm/base/uvm_event.py)

A transition system: a step is one call made by test code, or the scheduler resuming a coroutine suspended in one of
the `wait_*` tasks.  A cocotb `Event` is a flag (`fired`) plus suspended coroutines: `set` raises the flag and makes every
suspended coroutine runnable, `wait` on a raised flag suspends only until the next scheduling round (`NullTrigger`),
`clear` lowers the flag.  `reset` replaces the cocotb event by a new one; `gen` numbers those objects, and a coroutine
suspended on an older object is not reached by later triggers.  `trigger_data` is `none` for Python's `None`.
Not modelled: `set`/`wait` with `on_event` (73-86, unused by the rest), printing and copying, report texts.
-/
namespace Verif.Event

variable {α : Type}

/-- Where a coroutine is.  `trigWait g d`: suspended in line 147/161 on event object `g` (`d`: called through
`wait_trigger_data`/`wait_ptrigger_data`); `trigRun d`: the same, runnable; `valWait w` / `valRun w`: suspended /
runnable in `sv.wait` (sv.py 571-580) until `on` is `w`; `delay n`: in a zero delay, `n` more follow. -/
inductive Task where
  | idle
  | trigWait (g : Nat) (d : Bool) | trigRun (d : Bool)
  | valWait (w : Bool) | valRun (w : Bool)
  | delay (n : Nat)
deriving DecidableEq, Repr

/-- 51-59 and 276-287: `m_event` (its number and flag), `num_waiters`, `on`, the flag of `m_value_changed_event`,
`trigger_time`, `trigger_data`, `callbacks`. -/
structure State (α : Type) where
  gen : Nat
  fired : Bool
  numWaiters : Nat
  on : Bool
  vFired : Bool
  time : Nat
  data : Option α
  cbs : List Nat
  tasks : Nat → Task

/-- A new event. -/
def init : State α := ⟨0, false, 0, false, false, 0, none, [], fun _ => .idle⟩

/-- Calls; `t` names the calling coroutine. `trigger d now`: at simulation time `now`. -/
inductive Op (α : Type) where
  | trigger (d : Option α) (now : Nat) | reset (wakeup : Bool) | cancel
  | addCb (c : Nat) (append : Bool) | delCb (c : Nat)
  | waitOn (t : Nat) (delta : Bool) | waitOff (t : Nat) (delta : Bool)
  | waitTrigger (t : Nat) (d : Bool) | waitPtrigger (t : Nat) (d : Bool)
  | resume (t : Nat) | kill (t : Nat)
deriving DecidableEq, Repr

/-- Effects. `returned t v`: a wait call of `t` returned (with `some data` for the `_data` variants); `triggered`: a
trigger took place; `skipped c` / `raised c`: `trigger` did nothing but call `pre_trigger` of `c`, and for `raised` the
`TypeError` of adding `None` was raised. -/
inductive Out (α : Type) where
  | nothing | suspended | returned (t : Nat) (v : Option (Option α))
  | triggered | skipped (c : Nat) | raised (c : Nat) | done | warned
deriving DecidableEq, Repr

/-- A new position for coroutine `t`. -/
def setTask (s : State α) (t : Nat) (x : Task) : State α :=
  { s with tasks := fun u => if u = t then x else s.tasks u }

/-- cocotb: a coroutine suspended on event object `g` becomes runnable. -/
def wakeTrig (g : Nat) : Task → Task
  | .trigWait g' d => if g' = g then .trigRun d else .trigWait g' d
  | x => x

/-- cocotb: `m_event.set(..)`. -/
def setEvent (s : State α) : State α :=
  { s with fired := true, tasks := fun u => wakeTrig s.gen (s.tasks u) }

/-- A coroutine suspended on `m_value_changed_event` becomes runnable. -/
def wakeVal : Task → Task
  | .valWait w => .valRun w
  | x => x

/-- 62-71: `set_value("on", v)`. -/
def setOn (s : State α) (v : Bool) : State α :=
  { s with on := v, vFired := true, tasks := fun u => wakeVal (s.tasks u) }

/-- 319-345: `trigger`. `pre c` is what `pre_trigger` of callback `c` returns (`none` for `None`). The loop of 330-332
only assigns `tmp`, so the last callback alone is asked (334), and its answer turns `skip` into an `int`, which `is not
False`. -/
def trigger (pre : Nat → Option Int) (s : State α) (d : Option α) (now : Nat) : State α × Out α :=
  match s.cbs.getLast? with
  | some c =>
    match pre c with
    | none => (s, .raised c)
    | some _ => (s, .skipped c)
  | none =>
    let s := setEvent s
    let s := { s with numWaiters := 0 }
    let s := setOn s true
    ({ s with time := now, data := d }, .triggered)

/-- 195-210: `reset`. -/
def reset (s : State α) (wakeup : Bool) : State α :=
  let s := if wakeup then setEvent s else s
  let s := { s with gen := s.gen + 1, fired := false, numWaiters := 0 }
  let s := setOn s false
  { s with time := 0 }

/-- 147-148 / 161-162: `await self.m_event.wait()` reached: suspended or only for one scheduling round. -/
def awaitTrig (s : State α) (t : Nat) (d : Bool) : State α :=
  setTask { s with numWaiters := s.numWaiters + 1 } t (if s.fired then .trigRun d else .trigWait s.gen d)

/-- sv.py 576-578: `await event.wait()`. -/
def awaitVal (s : State α) (t : Nat) (w : Bool) : State α :=
  setTask s t (if s.vFired then .valRun w else .valWait w)

/-- What the `_data` variants return (289-313). -/
def result (s : State α) (t : Nat) (d : Bool) : Out α := .returned t (if d then some s.data else none)

/-- One step. Calls by a coroutine that is already inside a wait are not possible and change nothing. -/
def step (pre : Nat → Option Int) (s : State α) : Op α → State α × Out α
  | .trigger d now => trigger pre s d now
  | .reset w => (reset s w, .done)
  | .cancel => ({ s with numWaiters := s.numWaiters - 1 }, .done)                 -- 213-221
  | .addCb c app =>                                                              -- 361-379
    if c ∈ s.cbs then (s, .warned)
    else if app then ({ s with cbs := s.cbs ++ [c] }, .done)
    else if s.cbs.isEmpty then (s, .warned)                                      -- uvm_queue.py 145-149
    else ({ s with cbs := c :: s.cbs }, .done)
  | .delCb c =>                                                                  -- 382-393
    if c ∈ s.cbs then ({ s with cbs := s.cbs.erase c }, .done) else (s, .warned)
  | .waitOn t delta =>                                                           -- 89-111
    if s.tasks t ≠ .idle then (s, .nothing)
    else if s.on then (setTask s t (.delay (if delta then 1 else 0)), .suspended)
    else (awaitVal { s with numWaiters := s.numWaiters + 1 } t true, .suspended)
  | .waitOff t delta =>                                                          -- 114-132
    if s.tasks t ≠ .idle then (s, .nothing)
    else if s.on = false then
      if delta then (setTask s t (.delay 0), .suspended) else (s, .returned t none)
    else (awaitVal { s with numWaiters := s.numWaiters + 1 } t false, .suspended)
  | .waitTrigger t d =>                                                          -- 135-148, 289-298
    if s.tasks t ≠ .idle then (s, .nothing)
    else (awaitTrig s t d, .suspended)
  | .waitPtrigger t d =>                                                         -- 151-162, 301-313
    if s.tasks t ≠ .idle then (s, .nothing)
    else if s.fired then (s, result s t d)
    else (awaitTrig s t d, .suspended)
  | .resume t =>
    match s.tasks t with
    | .trigRun d => let s := setTask { s with fired := false } t .idle; (s, result s t d)   -- 148
    | .valRun w =>                                                               -- sv.py 572-580
      let s := { s with vFired := false }
      if s.on = w then (setTask s t .idle, .returned t none) else (awaitVal s t w, .nothing)
    | .delay 0 => (setTask s t .idle, .returned t none)
    | .delay (n + 1) => (setTask s t (.delay n), .nothing)
    | _ => (s, .nothing)
  | .kill t => (setTask s t .idle, .done)

end Verif.Event
