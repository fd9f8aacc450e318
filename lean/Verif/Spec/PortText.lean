import Verif.Model.PortText
import Verif.Spec.Port
/-! # The network of a port, drawn as a tree -/
namespace Verif.PortText

/-- The tree below the connections `cs` at depth `d`, as far as the depth is `ok`: each connection with its depth, followed by what is below it, then the next connection. -/
inductive Net (next : Nat → List (String × Nat)) (ok : Nat → Prop) : Nat → List (String × Nat) → List (Nat × String × Nat) → Prop
  | nil (d : Nat) : Net next ok d [] []
  | cut {d : Nat} {c : String × Nat} {cs : List (String × Nat)} {m : List (Nat × String × Nat)} : ¬ ok (d + 1) → Net next ok d cs m → Net next ok d (c :: cs) ((d, c) :: m)
  | cons {d : Nat} {c : String × Nat} {cs : List (String × Nat)} {l m : List (Nat × String × Nat)} :
      ok (d + 1) → Net next ok (d + 1) (next c.2) l → Net next ok d cs m → Net next ok d (c :: cs) ((d, c) :: l ++ m)

/-- `max_level` levels are to be shown, all for -1. -/
def Within (maxLevel : Int) (d : Nat) : Prop := maxLevel = -1 ∨ (d : Int) < maxLevel

/-- Following one connection or more leads from `p` to `q`. -/
inductive Leads (next : Nat → List (String × Nat)) : Nat → Nat → Prop
  | one {p : Nat} {c : String × Nat} : c ∈ next p → Leads next p c.2
  | more {p q : Nat} {c : String × Nat} : c ∈ next p → Leads next c.2 q → Leads next p q

/-- There are no cycles. -/
def NoCycle (next : Nat → List (String × Nat)) (rank : Nat → Nat) : Prop := ∀ p c, c ∈ next p → rank c.2 < rank p

end Verif.PortText
