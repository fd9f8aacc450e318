import Verif.Model.CatcherDbg
/-! # Who is asked, and where an iterator stands -/
namespace Verif.CatcherDbg
open Verif.ReportText

/-- The entries up to and including the first with `p`. -/
def through {α : Type} (p : α → Bool) : List α → List α
  | [] => []
  | x :: l => if p x then [x] else x :: through p l

/-- Would this catcher catch the message? -/
def catches (m : Msg) (c : Catcher) : Bool := (c.catch_ m).2 = .caught

/-- The catchers asked about a message that nobody changes: the enabled ones, up to the first that catches it. -/
def asked (noCatch : Bool) (m : Msg) (q : List Catcher) : List Catcher :=
  through (fun c => !noCatch && catches m c) (q.filter (·.enabled))

/-- Where an iterator over the list `l` stands after some calls: `none` before the first call and past an end. -/
def moved (l : List Nat) (at_ : Option Nat) : IterOp → Option Nat
  | .first => if l = [] then none else some 0
  | .last => if l = [] then none else some (l.length - 1)
  | .next => at_.bind fun j => if j + 1 < l.length then some (j + 1) else none
  | .prev => at_.bind fun j => if j = 0 then none else some (j - 1)

def position (l : List Nat) (ops : List IterOp) : Option Nat := ops.foldl (moved l) none

end Verif.CatcherDbg
