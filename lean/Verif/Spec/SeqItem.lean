import Verif.Model.SeqItem
/-! # The place of an item in the tree of sequences -/
namespace Verif.SeqItem

/-- `i`, its parent, the parent's parent, … up to the root sequence. -/
inductive Chain (parent : Nat → Option Nat) : Nat → List Nat → Prop
  | root {i} : parent i = none → Chain parent i [i]
  | child {i p l} : parent i = some p → Chain parent p l → Chain parent i (i :: l)

/-- Names from the root down, joined by dots. -/
def joinUp : List String → String
  | [] => ""
  | [n] => n
  | n :: l => joinUp l ++ "." ++ n

/-- What happens to items: contexts are set, depths are asked for. -/
inductive Op where
  | context (i : Nat) (p q : Option Nat)
  | askDepth (i : Nat)

/-- One operation, with enough fuel; `none` if the parents form a loop. -/
def opStep (fuel : Nat) (s : State) : Op → Option State
  | .context i p q => setContext fuel s i p q
  | .askDepth i => (getDepth fuel s i).map (·.1)

/-- The parent relation after an operation. -/
def opParent (f : Nat → Option Nat) : Op → Nat → Option Nat
  | .context i (some p) _ => upd f i (some p)
  | _ => f

/-- Contexts are set from the outside in: when the context of `i` is set, nobody below `i` has been given a depth yet. -/
def OutsideIn (s : State) : Op → Prop
  | .context i (some _) _ => ∀ j l, j ≠ i → (s.depth j).isSome → Chain s.parent j l → i ∉ l
  | _ => True

/-- Histories in which contexts are set from the outside in and the parents never form a loop. -/
inductive Hist (fuel : Nat) : State → State → Prop
  | nil (s) : Hist fuel s s
  | cons {s s' t} (op : Op) : OutsideIn s op → (∀ i, ∃ l, Chain (opParent s.parent op) i l ∧ l.length ≤ fuel) →
      opStep fuel s op = some s' → Hist fuel s' t → Hist fuel s t

end Verif.SeqItem
