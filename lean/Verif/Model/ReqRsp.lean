import Verif.Model.TlmFifo
/-!
# Model of `UVMTLMReqRspChannel` (src/uvm/tlm1/uvm_tlm_req_rsp.py) and of the calls that reach its two FIFOs

The channel is two `UVMTLMFIFO`s (modelled in `Verif.Model.TlmFifo`) and six end points through which others call them.
Every call is one step of one of the FIFOs; what is modelled here is which FIFO a call through which end point reaches
and what the caller is handed back.  The coroutines of the two FIFOs are numbered separately, so the model also admits
schedules in which one coroutine waits in both; the real ones are among them.  Port resolution is taken from C57/C58:
an export connected to an implementation passes every call on to it.
-/
namespace Verif.ReqRsp
open Verif

variable {α : Type}

/-- `m_request_fifo`, `m_response_fifo` (212-213). -/
inductive Fifo where
  | request | response
deriving DecidableEq, Repr

/-- The end points 217-225; their aliases 238-267 are the same objects. -/
inductive End where
  | putRequest | getPeekRequest | putResponse | getPeekResponse | master | slave
deriving DecidableEq, Repr

/-- The FIFOs an implementation object was constructed with: `m_req_imp`, `m_rsp_imp`
(uvm_tlm_imps.py 323-336). -/
structure MsImp where
  reqImp : Fifo
  rspImp : Fifo

/-- 222-223: `UVMMasterImp("master_export", self, m_request_fifo, m_response_fifo)`. -/
def masterExport : MsImp := ⟨.request, .response⟩
/-- 224-225: `UVMSlaveImp("slave_export", self, m_request_fifo, m_response_fifo)`. -/
def slaveExport : MsImp := ⟨.request, .response⟩

/-- The FIFO whose `put`, `try_put`, `can_put` a call through the end point runs; `none`: the end point has no such
method, AttributeError.  230, 233 (exports), uvm_imps.py 331 (master: `m_req_imp`), 382 (slave: `m_rsp_imp`). -/
def putTarget : End → Option Fifo
  | .putRequest => some .request
  | .putResponse => some .response
  | .master => some masterExport.reqImp
  | .slave => some slaveExport.rspImp
  | .getPeekRequest | .getPeekResponse => none

/-- The FIFO whose `get`, `peek`, `try_get` ... a call through the end point runs.
231, 234, uvm_imps.py 332 (master: `m_rsp_imp`), 383 (slave: `m_req_imp`). -/
def getTarget : End → Option Fifo
  | .getPeekRequest => some .request
  | .getPeekResponse => some .response
  | .master => some masterExport.rspImp
  | .slave => some slaveExport.reqImp
  | .putRequest | .putResponse => none

/-- A call of a put/get/peek interface. -/
inductive Call (α : Type) where
  | put (t : Nat) (x : α) | get (t : Nat) | peek (t : Nat)
  | tryPut (x : α) | tryGet (l : List α) | tryPeek (l : List α)
deriving DecidableEq, Repr

/-- What can happen: a call through an end point; the scheduler resuming, or someone cancelling, a coroutine that
waits in one of the FIFOs. -/
inductive Ev (α : Type) where
  | call (e : End) (c : Call α)
  | resume (f : Fifo) (t : Nat)
  | kill (f : Fifo) (t : Nat)
deriving DecidableEq, Repr

/-- The two FIFOs; the observers of `request_ap` and `response_ap` are those of the FIFOs' `put_ap` (232, 235). -/
structure State (α : Type) where
  request : TlmFifo.State α
  response : TlmFifo.State α

/-- 208-227. -/
def init (reqSize rspSize : Int) : State α := ⟨TlmFifo.init reqSize, TlmFifo.init rspSize⟩

/-- What the observers of `request_ap` have seen (232). -/
def requestAp (s : State α) : List α := s.request.putSeen
/-- What the observers of `response_ap` have seen (235). -/
def responseAp (s : State α) : List α := s.response.putSeen

/-- What a call does at the FIFO it reaches.  The wrappers (uvm_tlm_imps.py 98-170) require the list argument of `get`
and `peek` and hand it on. -/
def Call.atFifo : Call α → TlmFifo.Ev α
  | .put t x => .callPut t x
  | .get t => .callGet t
  | .peek t => .callPeek t true
  | .tryPut x => .tryPut x
  | .tryGet l => .tryGet l
  | .tryPeek l => .tryPeek l

/-- Does the call belong to the put interface? -/
def Call.isPut : Call α → Bool
  | .put .. | .tryPut .. => true
  | _ => false

/-- One step of one of the FIFOs. -/
def atFifo (s : State α) (f : Fifo) (e : TlmFifo.Ev α) : State α × TlmFifo.Out α :=
  match f with
  | .request => let r := TlmFifo.step s.request e; ({ s with request := r.1 }, r.2)
  | .response => let r := TlmFifo.step s.response e; ({ s with response := r.1 }, r.2)

/-- The FIFO an event reaches. -/
def target : Ev α → Option Fifo
  | .call e c => if c.isPut then putTarget e else getTarget e
  | .resume f _ => some f
  | .kill f _ => some f

/-- The event at that FIFO. -/
def fifoEv : Ev α → TlmFifo.Ev α
  | .call _ c => c.atFifo
  | .resume _ t => .resume t
  | .kill _ t => .kill t

/-- One event: the FIFO reached, if any, and what happened there. -/
def step (s : State α) (e : Ev α) : State α × (Option Fifo × TlmFifo.Out α) :=
  match target e with
  | none => (s, none, .raised)
  | some f => let r := atFifo s f (fifoEv e); (r.1, some f, r.2)

/-- What a completed blocking call hands to its caller: the value of the `await` expression and what was appended to
the list the caller passed.  `UVMTLMFIFO.get`/`peek` return the transaction and append it (uvm_tlm_fifos.py 115-128);
the wrapper every port, export and implementation has (uvm_tlm_imps.py 128-130, 153-155) awaits that and returns
nothing. `direct`: the FIFO's own method is called. -/
def handedBack (direct : Bool) : TlmFifo.Out α → Option α × List α
  | .gotten _ x => (if direct then some x else none, [x])
  | .peeked _ x l => (if direct then x else none, l.filterMap id)
  | _ => (none, [])

end Verif.ReqRsp
