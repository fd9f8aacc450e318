import Verif.Model.Component
/-! # Specification vocabulary for component trees -/
namespace Verif.Component

/-- Names joined with dots. -/
def joinDots : List Name → Name
  | [] => []
  | [a] => a
  | a :: b :: l => a ++ '.' :: joinDots (b :: l)

/-- `c` exists and its parent is `p`. -/
def ChildOf (s : State) (c p : Nat) : Prop := c < s.next ∧ (s.comp c).parent = some p

/-- The names met going up from `c` to the root, root end first. -/
inductive Path (s : State) : Nat → List Name → Prop
  | root : Path s 0 []
  | step {c p : Nat} {l : List Name} : ChildOf s c p → Path s p l → Path s c (l ++ [(s.comp c).leaf])

/-- `d` is found below `c` by following the names `l`. -/
inductive Down (s : State) : Nat → List Name → Nat → Prop
  | here {c : Nat} : Down s c [] c
  | step {c d e : Nat} {a : Name} {l : List Name} : ChildOf s d c → (s.comp d).leaf = a → Down s d l e →
      Down s c (a :: l) e

/-- No component's name contains a dot. -/
def DotFree (s : State) : Prop := ∀ c, c < s.next → '.' ∉ (s.comp c).leaf

end Verif.Component
