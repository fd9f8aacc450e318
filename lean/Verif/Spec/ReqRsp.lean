import Verif.Model.ReqRsp
import Verif.Spec.TlmFifo
/-! # A request/response channel, as the UVM class reference describes it -/
namespace Verif.ReqRsp
variable {α : Type}

/-- What an end point is for: the direction(s) it serves. The master puts requests and gets responses, the slave
gets requests and puts responses. -/
structure Role where
  putsRequests : Bool := false
  getsRequests : Bool := false
  putsResponses : Bool := false
  getsResponses : Bool := false

def role : End → Role
  | .putRequest => { putsRequests := true }
  | .getPeekRequest => { getsRequests := true }
  | .putResponse => { putsResponses := true }
  | .getPeekResponse => { getsResponses := true }
  | .master => { putsRequests := true, getsResponses := true }
  | .slave => { getsRequests := true, putsResponses := true }

/-- Transactions that entered / left on a side, read off the observable effects. -/
def putsOn (f : Fifo) (os : List (Option Fifo × TlmFifo.Out α)) : List α :=
  os.flatMap fun o => if o.1 = some f then TlmFifo.putBy o.2 else []
def takesOn (f : Fifo) (os : List (Option Fifo × TlmFifo.Out α)) : List α :=
  os.flatMap fun o => if o.1 = some f then TlmFifo.takenBy o.2 else []

/-- The side a list of transactions is stored on. -/
def stored (s : State α) : Fifo → List α
  | .request => s.request.m.queue
  | .response => s.response.m.queue

/-- What the analysis port of a side has shown. -/
def shown (s : State α) : Fifo → List α
  | .request => requestAp s
  | .response => responseAp s

end Verif.ReqRsp
