import Verif.Model.Mailbox
/-!
# Model of `UVMTLMFIFO` and `UVMTLMAnalysisFIFO` (src/uvm/tlm1/uvm_tlm_fifos.py)

The FIFO owns a `UVMMailbox`; its steps are steps of the mailbox transition system of
`Verif.Model.Mailbox` followed, in the same atomic segment, by the broadcast on `put_ap` or `get_ap`.
`putSeen` / `getSeen` are what one observer connected to `put_ap` / `get_ap` has received so far (every
connected observer receives the same calls, see C57); what observers do with a transaction is not modelled.
Report output is reduced to the fact that the `flush failed` error was reported.
-/
namespace Verif.TlmFifo
open Verif

variable {α : Type}

/-- `m`, `m_size`, `m_pending_blocked_gets` (lines 66-68), what the observers saw, and for each coroutine
inside `peek` whether it passed a list. -/
structure State (α : Type) where
  m : Mailbox.State α
  size : Int
  pending : Int
  putSeen : List α
  getSeen : List α
  withList : Nat → Bool

/-- `UVMTLMFIFO.__init__` 53-68. -/
def init (size : Int) : State α := ⟨Mailbox.init size, size, 0, [], [], fun _ => false⟩

/-- `UVMTLMAnalysisFIFO.__init__` 183-205: unbounded. -/
def initAnalysis : State α := init 0

/-- Calls of the FIFO.  Blocking calls name the calling coroutine. `tryGet l` / `tryPeek l` pass the list `l`. -/
inductive Ev (α : Type) where
  | callPut (t : Nat) (x : α) | callGet (t : Nat) | callPeek (t : Nat) (list : Bool)
  | resume (t : Nat) | kill (t : Nat)
  | tryPut (x : α) | tryGet (l : List α) | tryPeek (l : List α)
  | write (x : α)
  | flush
deriving DecidableEq, Repr

/-- Observable effect of a call or resumption.  `peeked t x l`: `peek` returned `x` and appended `l` to the
list passed, if any. `written x ok`: `ok`
records whether the inner `try_put` accepted (the caller is not told). `flushed xs err`: the transactions removed, and whether the error was reported. -/
inductive Out (α : Type) where
  | nothing | blocked | raised
  | putDone (t : Nat) (x : α) | gotten (t : Nat) (x : α)
  | peeked (t : Nat) (x : Option α) (l : List (Option α))
  | tryPut (x : α) (ok : Bool) | tryGet (ok : Bool) (l : List α) | tryPeek (ok : Bool) (l : List α)
  | written (x : α) (ok : Bool)
  | flushed (xs : List α) (err : Bool)
deriving DecidableEq, Repr

/-- uvm_mailbox.py 154-155: `num()` is the boolean `size > 0`; as a number 0 or 1. -/
def num (s : State α) : Int := if s.m.queue.length > 0 then 1 else 0

/-- 73-82. -/
def sizeQ (s : State α) : Int := s.size
/-- 84-92. -/
def used (s : State α) : Int := num s
/-- 94-99. -/
def isEmpty (s : State α) : Bool := num s == 0
/-- 101-107. -/
def isFull (s : State α) : Bool := s.size != 0 && num s == s.size
/-- 145-146. -/
def canPut (s : State α) : Bool := s.size == 0 || decide (num s < s.size)
/-- 148-149. -/
def canGet (s : State α) : Bool := decide (num s > 0) && s.pending == 0
/-- 151-152. -/
def canPeek (s : State α) : Bool := decide (num s > 0)

/-- 139-143: `try_put`. -/
def tryPut (s : State α) (x : α) : State α × Bool :=
  match Mailbox.step s.m (.tryPut x) with
  | (m, .tryPut _ true) => ({ s with m := m, putSeen := s.putSeen ++ [x] }, true)
  | (m, _) => ({ s with m := m }, false)

/-- 130-134: `try_get(t)`; the mailbox appends to `t`, then `t[0]` is broadcast. -/
def tryGet (s : State α) (l : List α) : State α × Bool × List α :=
  match Mailbox.step s.m .tryGet with
  | (m, .tryGet (some x)) =>
    ({ s with m := m, getSeen := s.getSeen ++ ((l ++ [x]).head?.toList) }, true, l ++ [x])
  | (m, _) => ({ s with m := m }, false, l)

/-- 161-162: the loop of `flush`.  Every round with a result removes one stored transaction, so
`queue.length + 1` rounds suffice (`n` counts them). -/
def flushLoop : Nat → State α → List α → State α × List α
  | 0, s, trans => (s, trans)
  | n + 1, s, trans =>
    match tryGet s trans with
    | (s, true, trans) => flushLoop n s trans
    | (s, false, trans) => (s, trans)

/-- 154-166: `flush`. -/
def flush (s : State α) : State α × Out α :=
  let r := flushLoop (s.m.queue.length + 1) s []
  (r.1, .flushed r.2 (decide (num r.1 > 0) && r.1.pending != 0))

/-- What follows in the same segment once the mailbox call of a coroutine has run:
lines 112 (`put`), 118-122 (`get`), 126-128 (`peek`; the mailbox itself appended once, uvm_mailbox.py 95-96). -/
def after (s : State α) (m : Mailbox.State α) (o : Mailbox.Out α) : State α × Out α :=
  match o with
  | .putDone t x => ({ s with m := m, putSeen := s.putSeen ++ [x] }, .putDone t x)
  | .gotten t x => ({ s with m := m, pending := s.pending - 1, getSeen := s.getSeen ++ [x] }, .gotten t x)
  | .peeked t x => ({ s with m := m }, .peeked t x (if s.withList t then [x, x] else []))
  | .blocked => ({ s with m := m }, .blocked)
  | .raised => ({ s with m := m }, .raised)
  | _ => ({ s with m := m }, .nothing)

/-- One call or resumption. -/
def step (s : State α) : Ev α → State α × Out α
  | .callPut t x =>                                                            -- 110-112
    match s.m.tasks t with
    | .idle => let r := Mailbox.step s.m (.callPut t x); after s r.1 r.2
    | _ => (s, .nothing)
  | .callGet t =>                                                              -- 115-122
    match s.m.tasks t with
    | .idle =>
      let r := Mailbox.step s.m (.callGet t)
      after { s with pending := s.pending + 1 } r.1 r.2
    | _ => (s, .nothing)
  | .callPeek t b =>                                                           -- 124-128
    match s.m.tasks t with
    | .idle =>
      let r := Mailbox.step s.m (.callPeek t)
      after { s with withList := fun u => if u = t then b else s.withList u } r.1 r.2
    | _ => (s, .nothing)
  | .resume t => let r := Mailbox.step s.m (.resume t); after s r.1 r.2
  | .kill t => let r := Mailbox.step s.m (.kill t); after s r.1 r.2          -- cancelled: nothing more runs
  | .tryPut x => let r := tryPut s x; (r.1, .tryPut x r.2)
  | .tryGet l => let r := tryGet s l; (r.1, .tryGet r.2.1 r.2.2)
  | .tryPeek l =>                                                              -- 136-137
    match Mailbox.step s.m .tryPeek with
    | (m, .tryPeek (some x)) => ({ s with m := m }, .tryPeek true (l ++ [x]))
    | (m, _) => ({ s with m := m }, .tryPeek false l)
  | .write x => let r := tryPut s x; (r.1, .written x r.2)                                     -- 210-211
  | .flush => flush s

end Verif.TlmFifo
