import Verif.Util.Machine
import Verif.Model.Callback
/-! # Which callbacks an object should have, read off the history -/
namespace Verif.Callback

/-- Keep the first addition of every callback. -/
def firstAdds : List (Nat × Bool) → List (Nat × Bool)
  | [] => []
  | (c, a) :: l => (c, a) :: (firstAdds l).filter (·.1 ≠ c)

/-- The queue some additions (callback, append?) make: the prepended ones, latest first, then the appended ones in order. -/
def queueOf (l : List (Nat × Bool)) : List Nat :=
  ((firstAdds l).filter (·.2 = false)).reverse.map (·.1) ++ ((firstAdds l).filter (·.2 = true)).map (·.1)

def typeAdd : Op → Option (Nat × Bool)
  | .addType c a => some (c, a)
  | _ => none

def instAdd (o : Nat) : Op → Option (Nat × Bool)
  | .addInst o' c a => if o' = o then some (c, a) else none
  | _ => none

/-- Additions that concern an object: type-wide ones and its own. -/
def anyAdd (o : Nat) : Op → Option (Nat × Bool)
  | .addType c a => some (c, a)
  | .addInst o' c a => if o' = o then some (c, a) else none
  | _ => none

/-- The documented queue of an object: type-wide and own callbacks merged by the requested ordering. -/
def merged (ops : List Op) (o : Nat) : List Nat := queueOf (ops.filterMap (anyAdd o))

/-- What the code keeps: the object's own callbacks as soon as it has one, the type-wide ones before. -/
def kept (ops : List Op) (o : Nat) : List Nat :=
  if ops.filterMap (instAdd o) = [] then queueOf (ops.filterMap typeAdd) else queueOf (ops.filterMap (instAdd o))

/-- Is a callback enabled: the last mode set, on by default. -/
def modeSet (c : Nat) : Op → Option Bool
  | .mode c' on => if c' = c then (if on = 0 then some false else if on = 1 then some true else none) else none
  | _ => none

def isEnabled (ops : List Op) (c : Nat) : Bool := ((ops.filterMap (modeSet c)).getLast?).getD true

/-- A user's loop from `last` with `prev`: the callbacks visited, at most `n`. -/
def backLoop (isa : Nat → Nat → Bool) (s : State) (o k : Option Nat) : Nat → Option Nat × Nat → List Nat
  | 0, _ => []
  | _ + 1, (none, _) => []
  | n + 1, (some c, i) => c :: backLoop isa s o k n (getPrev isa s o k i)

end Verif.Callback
