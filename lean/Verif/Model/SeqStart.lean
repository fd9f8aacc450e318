/-!
# Model of the life of a sequence: `start`, its hooks, states and automatic phase objection (src/uvm/seq/uvm_sequence_base.py)

User code is a script per hook: which of the setters and getters of the sequence it calls, in order, and whether it ends with an
exception.  Not modelled here: the sequencer's arbitration (`Verif.Model.Arbiter`), transaction recording, the response queue
(`Verif.Model.Response`).  There is no `kill()` (888-948 are comments), so a sequence ends by returning or by an exception.
-/
namespace Verif.SeqStart

/-- uvm_object_globals.py 353-361. -/
inductive St where
  | created | preStart | preBody | body | postBody | postStart | ended | stopped | finished
deriving DecidableEq, Repr

/-- The value of the state constant. -/
def St.code : St → Nat
  | .created => 1 | .preStart => 2 | .preBody => 4 | .body => 8 | .postBody => 16 | .postStart => 32
  | .ended => 64 | .stopped => 128 | .finished => 256

/-- The overridable methods called during `start`. -/
inductive Hook where
  | preStart | preBody | parentPreDo | parentMidDo | body | parentPostDo | postBody | postStart
deriving DecidableEq, Repr

/-- What user code may do to the sequence's phase settings. -/
inductive Act where
  | setApo (b : Bool) | getApo | setPhase (p : Option Nat) | getPhase
deriving DecidableEq, Repr

/-- A hook: its calls, and whether it raises an exception after them. -/
structure Script where
  acts : List Act := []
  raises : Bool := false
deriving DecidableEq, Repr

/-- A sequence, with the objections it holds and the calls of hooks so far (with the state and the objections held then). `None` as
automatic phase objection counts as false. -/
structure Seq where
  state : St := .created                  -- 169
  apo : Bool := false                     -- 171: the two access policies `uvm_get_to_lock_dap`
  apoLocked : Bool := false
  phase : Option Nat := none
  phaseLocked : Bool := false
  priority : Int := -1                    -- 173
  held : List Nat := []
  isChild : Bool := false                 -- `self in parent.children_array`
  registered : Bool := false              -- known to the sequencer
  finEvent : Bool := false                -- `m_events[UVM_FINISHED]` is set
  errors : Nat := 0
  log : List (Hook × St × List Nat) := []
deriving DecidableEq, Repr

/-- uvm_get_to_lock_dap.py 67-71, 94-96 through 563-671. -/
def act (q : Seq) : Act → Seq
  | .setApo b => if q.apoLocked then { q with errors := q.errors + 1 } else { q with apo := b }
  | .getApo => { q with apoLocked := true }
  | .setPhase p => if q.phaseLocked then { q with errors := q.errors + 1 } else { q with phase := p }
  | .getPhase => { q with phaseLocked := true }

/-- One step of `start_process` 372-427. -/
inductive Step where
  | to (s : St) | hook (h : Hook) | raiseObj | dropObj | finish
deriving DecidableEq, Repr

/-- The result is the sequence afterwards and whether to go on (no exception). -/
def step (sc : Hook → Script) (q : Seq) : Step → Seq × Bool
  | .to s => ({ q with state := s }, true)
  | .hook h =>
    let q := { q with log := q.log ++ [(h, q.state, q.held)] }
    ((sc h).acts.foldl act q, !(sc h).raises)
  | .raiseObj =>                                         -- 382-383, 673-684
    let q := act q .getApo
    if q.apo then
      let q := act q .getPhase
      match q.phase with
      | some p => ({ q with held := p :: q.held }, true)
      | none => (q, true)
    else (q, true)
  | .dropObj =>                                          -- 421-422, 686-698
    let q := act q .getApo
    if q.apo then
      let q := act q .getPhase
      match q.phase with
      | some p => ({ q with held := q.held.erase p }, true)
      | none => (q, true)
    else (q, true)
  | .finish => ({ q with state := .finished, finEvent := true }, true)  -- 424-425

/-- 372-427: `start_process` as the straight line of its steps. -/
def prog (parent callPrePost : Bool) : List Step :=
  [.raiseObj, .hook .preStart]
  ++ (if callPrePost then [.to .preBody, .hook .preBody] else [])
  ++ (if parent then [.hook .parentPreDo, .hook .parentMidDo] else [])
  ++ [.to .body, .hook .body, .to .ended]
  ++ (if parent then [.hook .parentPostDo] else [])
  ++ (if callPrePost then [.to .postBody, .hook .postBody] else [])
  ++ [.to .postStart, .hook .postStart, .dropObj, .finish]

/-- Steps until one raises. -/
def run (sc : Hook → Script) : List Step → Seq → Seq × Bool
  | [], q => (q, true)
  | p :: ps, q =>
    let r := step sc q p
    if r.2 then run sc ps r.1 else r

/-- How a call of `start` ends. -/
inductive Res where
  | done | fatal | raised
deriving DecidableEq, Repr

/-- 306-318: the priority; `none` = illegal. `parent`: the priority of the parent sequence. -/
def priority (parent : Option Int) (p : Int) : Option Int :=
  if p < -1 then none
  else if p < 0 then match parent with
    | none => some 100
    | some q => some q
  else some p

/-- 261-369: `start(sequencer, parent_sequence, this_priority, call_pre_post)`; a fatal report raises `UVMFinishError`. -/
def start (sc : Hook → Script) (parent : Option Int) (sqr : Bool) (prio : Int) (callPrePost : Bool) (q : Seq) : Seq × Res :=
  if ¬ (q.state = .created ∨ q.state = .stopped ∨ q.state = .finished) then (q, .fatal)   -- 299-301
  else
    let q := if parent.isSome then { q with isChild := true } else q                   -- 303-304
    match priority parent prio with
    | none => (q, .fatal)                                                           -- 306-308
    | some p =>
      let q := { q with priority := p, registered := sqr, state := .preStart }          -- 318, 341-346
      let r := run sc (prog parent.isSome callPrePost) q                              -- 348-349
      if r.2 = false then (r.1, .raised)
      else
        let q := if r.1.state ≠ .stopped then { r.1 with registered := false } else r.1   -- 356-358
        let q := { q with isChild := false }                                          -- 363-365
        ({ q with apoLocked := false, phase := none, phaseLocked := false }, .done)       -- 367-369

/-- 223-241: `wait_for_sequence_state(mask)`. -/
inductive Wait where
  | returns | waits | raises
deriving DecidableEq, Repr

def waitForState (q : Seq) (mask : Nat) : Wait :=
  let s := q.state.code &&& mask
  if s = St.finished.code then (if q.finEvent then .returns else .waits) else .raises

end Verif.SeqStart
