import Verif.Model.RegXlate
/-!
# Calls of `do_reg_item` one after another
-/
namespace Verif.RegXlate

/-- The calls for these items, each finished before the next begins. -/
def oneByOne (items : List Nat) : List Op := items.flatMap fun i => [.begin i, .finish i]

/-- Calls that overlap in any way, of which those for the items `o` have not ended yet; an item is not given to a second call before the first has ended. -/
inductive Calls : List Op → List Nat → Prop
  | nil : Calls [] []
  | begin {l o} (i : Nat) : Calls l o → i ∉ o → Calls (l ++ [.begin i]) (i :: o)
  | finish {l o} (i : Nat) : Calls l o → i ∈ o → Calls (l ++ [.finish i]) (o.erase i)

/-- The items that arrived, in order. -/
def arrived : List BodyOp → List Nat
  | [] => []
  | .arrive i :: l => i :: arrived l
  | .go :: l => arrived l

end Verif.RegXlate
