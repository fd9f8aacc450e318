import Verif.Model.Dap
/-! # Data access policies, read from the history of calls (oldest first) -/
namespace Verif.Dap
variable {α : Type}

/-- The value last passed to `set` in `h`, else `d`. -/
def lastSet (d : Option α) : List (Op α) → Option α
  | [] => d
  | .set v :: h => lastSet (some v) h
  | _ :: h => lastSet d h

/-- The calls before the first `get`. -/
def beforeGet : List (Op α) → List (Op α)
  | [] => []
  | .get :: _ => []
  | o :: h => o :: beforeGet h

def hasGet : List (Op α) → Bool
  | [] => false
  | .get :: _ => true
  | _ :: h => hasGet h

def hasSet : List (Op α) → Bool
  | [] => false
  | .set _ :: _ => true
  | _ :: h => hasSet h

/-- Is the lock held after `h`, if it was `l` before? The last `lock` or `unlock` decides. -/
def heldAfter (l : Bool) : List (Op α) → Bool
  | [] => l
  | .lock :: h => heldAfter true h
  | .unlock :: h => heldAfter false h
  | _ :: h => heldAfter l h

/-- The value of the last `set` made while the lock was free, else `d`; the lock is `l` at the start. -/
def lastFreeSet (l : Bool) (d : Option α) : List (Op α) → Option α
  | [] => d
  | .set v :: h => lastFreeSet l (if l then d else some v) h
  | .lock :: h => lastFreeSet true d h
  | .unlock :: h => lastFreeSet false d h
  | _ :: h => lastFreeSet l d h

end Verif.Dap
