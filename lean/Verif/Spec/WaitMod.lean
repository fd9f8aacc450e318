import Verif.Model.WaitMod
/-! # Waiting for changes, as a user sees it -/
namespace Verif.WaitMod.Spec
variable {V : Type}

def changes : List (Out V) → Nat
  | [] => 0
  | .changed _ :: l => changes l + 1
  | _ :: l => changes l

def returns : List (Out V) → Nat
  | [] => 0
  | .returned _ :: l => returns l + 1
  | _ :: l => returns l

/-- The value after what was seen. -/
def last (v : V) : List (Out V) → V
  | [] => v
  | .changed w :: l => last w l
  | _ :: l => last v l

/-- Whether the resource was last made read-only. -/
def lastReadOnly (b : Bool) : List (Op V) → Bool
  | [] => b
  | .setReadOnly c :: l => lastReadOnly c l
  | _ :: l => lastReadOnly b l

end Verif.WaitMod.Spec
