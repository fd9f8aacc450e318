import Verif.Model.Mailbox
/-!
# Model of the access token of a register (src/uvm/reg/uvm_reg.py)

Every `write`, `read` and `mirror` of a register takes a token from a one-place mailbox
(`m_atomic`, lines 100-101) before it does anything and puts it back at the end.
The model is a transition system built on the mailbox model: any number of coroutines (identified
by `Nat`) access one register, and one transition is one atomic segment.  What an access does
between taking and returning the token (fields, bus) is not modelled here; it may take any
number of transitions of other coroutines.
Simplification: `XatomicX` 1265-1267 (an access that carries the very item of the access in
progress does not wait) is never taken, because `write` 896, `read` 961 and `mirror` 1115
create a new item each time and objects are compared by identity.
-/
namespace Verif.RegAtomic

/-- What a coroutine asks for: an ordinary access, or a `mirror` for which `get_local_map`
finds no map (1126-1129). -/
inductive Kind where
  | access | mirrorNoMap
deriving DecidableEq, Repr

/-- The token mailbox, what each waiting coroutine will do with the token, and how many
accesses (nested, from callbacks) each coroutine is in the middle of. -/
structure State where
  mb : Mailbox.State Unit
  pend : Nat → Kind
  inside : Nat → Nat

/-- `UVMReg.__init__` 99-101: the mailbox has one place and starts with the token. -/
def init : State :=
  ⟨(Mailbox.step (Mailbox.init 1) (.tryPut ())).1, fun _ => .access, fun _ => 0⟩

inductive Ev where
  | call (t : Nat) (k : Kind)   -- a coroutine calls write/read/mirror
  | resume (t : Nat)            -- the scheduler resumes a coroutine waiting for the token
  | finish (t : Nat)            -- the innermost access of `t` reaches its end
  | refuse (t : Nat)            -- the innermost write of `t` is refused by a callback
  | reset                       -- `reset()`
  | kill (t : Nat)              -- a coroutine is cancelled
deriving DecidableEq, Repr

/-- Observable effect of a step. -/
inductive Out where
  | nothing
  | waiting (t : Nat)    -- suspended until the token is free
  | entered (t : Nat)    -- has the token: the access starts
  | returned (t : Nat)   -- `mirror` without a map returned
  | finished (t : Nat)   -- the access is over
  | killed (t : Nat)
  | reset
deriving DecidableEq, Repr

/-- `XatomicX(0)` 1273-1276: take a token if there is one, then put one.
The `put` is made in the same atomic segment: the mailbox has just been emptied. -/
def release (m : Mailbox.State Unit) (t : Nat) : Mailbox.State Unit :=
  (Mailbox.step (Mailbox.step m .tryGet).1 (.callPut t ())).1

/-- What follows a completed or suspended `get` in `XatomicX(1)` (1269-1270): an ordinary access
starts; `mirror` without a map returns at once (1128-1129), without `XatomicX(0)`. -/
def after (s : State) (t : Nat) (k : Kind) (r : Mailbox.State Unit × Mailbox.Out Unit) : State × Out :=
  match r.2 with
  | .gotten _ _ =>
    match k with
    | .access =>
      ({ s with mb := r.1, inside := fun u => if u = t then s.inside t + 1 else s.inside u }, .entered t)
    | .mirrorNoMap => ({ s with mb := r.1 }, .returned t)
  | _ => ({ s with mb := r.1, pend := fun u => if u = t then k else s.pend u }, .waiting t)

/-- The coroutine is between two awaits of its own access, not inside `m_atomic.get`. -/
def running (s : State) (t : Nat) : Bool :=
  match s.mb.tasks t with
  | .idle => true
  | _ => false

/-- One scheduler step.
`call`: 896-897, 961-962, 1115-1116.  `finish`: 914, 964, 1146.
`refuse`: 1450-1453 followed by 913-914, two releases with no await that suspends between them.
`reset`: 814-816.  `kill`: nothing is released, there is no `finally`. -/
def step (s : State) : Ev → State × Out
  | .call t k =>
    if running s t then after s t k (Mailbox.step s.mb (.callGet t)) else (s, .nothing)
  | .resume t =>
    match s.mb.tasks t with
    | .getWoken => after s t (s.pend t) (Mailbox.step s.mb (.resume t))
    | _ => (s, .nothing)
  | .finish t =>
    if running s t && decide (0 < s.inside t) then
      ({ s with mb := release s.mb t,
                inside := fun u => if u = t then s.inside t - 1 else s.inside u }, .finished t)
    else (s, .nothing)
  | .refuse t =>
    if running s t && decide (0 < s.inside t) then
      ({ s with mb := release (release s.mb t) t,
                inside := fun u => if u = t then s.inside t - 1 else s.inside u }, .finished t)
    else (s, .nothing)
  | .reset =>
    ({ s with mb := (Mailbox.step (Mailbox.step s.mb .tryGet).1 (.tryPut ())).1 }, .reset)
  | .kill t =>
    ({ s with mb := (Mailbox.step s.mb (.kill t)).1,
              inside := fun u => if u = t then 0 else s.inside u }, .killed t)

end Verif.RegAtomic
