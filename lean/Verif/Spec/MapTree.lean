import Verif.Model.MapTree
/-!
# Trees given by parents
-/
namespace Verif.MapTree

/-- `a` is above `x`: the parent, the parent's parent, and so on. -/
inductive Under (par : Nat → Option Nat) : Nat → Nat → Prop where
  | base {x a} (h : par x = some a) : Under par x a
  | up {x p a} (h : par x = some p) (h' : Under par p a) : Under par x a

/-- The blocks are a tree of bounded depth. -/
def BlockTree (bp : Nat → Option Nat) (rank : Nat → Nat) (n : Nat) : Prop := (∀ b p, bp b = some p → rank p < rank b) ∧ ∀ b, rank b < n

/-- The operations on maps that exist; the offset is set only of submaps. -/
def Legal (s : State) : Op → Prop
  | .create .. => True
  | .setDefault _ m => m < s.count
  | .addSubmap p c _ => p < s.count ∧ ∀ x, c = some x → x < s.count
  | .setOffset p c _ => ∀ x, c = some x → (s.map x).parent = some p
  | .setSequencer m _ _ => m < s.count

/-- What can be built. -/
inductive Reachable (bp : Nat → Option Nat) (n : Nat) : State → Prop where
  | init : Reachable bp n init
  | step {s : State} (h : Reachable bp n s) (op : Op) (hl : Legal s op) : Reachable bp n (step bp n s op)

end Verif.MapTree
