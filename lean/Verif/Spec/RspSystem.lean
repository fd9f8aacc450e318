import Verif.Spec.RspRoute
import Verif.Model.RspSystem
/-! # The calls of a testbench that concern ids, and what a coroutine is given -/
namespace Verif.RspSystem

/-- The sends, answers, starts, ... of a history. -/
def routed : Op → Option RspRoute.Op
  | .route o => some o
  | _ => none

/-- The history as the sequencers see it. -/
def calls (h : List Op) : List RspRoute.Op := h.filterMap routed

/-- The sequence whose coroutine a call belongs to. -/
def caller : Op → Option Nat
  | .get i _ _ => some i
  | .resume i _ => some i
  | _ => none

/-- The calls of a history with what they gave. -/
def trace (h : List Op) : List (Op × Response.Out Rsp) := h.zip (run step init h).2

/-- A coroutine of sequence `i` got a response to item `x`. -/
def isGot (i x : Nat) : Op × Response.Out Rsp → Bool
  | (o, .got _ _ r) => decide (caller o = some i ∧ r.item = x)
  | _ => false

/-- A driver answers item `x`. -/
def isAnswer (x : Nat) : Op → Bool
  | .route (.respond _ y) => decide (y = x)
  | _ => false

end Verif.RspSystem
