/-! # Edit distance, defined by edit scripts (independent of any algorithm) -/
namespace Verif.SpellChkr
variable {α : Type}

/-- One edit: insert, delete or substitute one character anywhere. -/
inductive Edit : List α → List α → Prop
  | insert (p q : List α) (c : α) : Edit (p ++ q) (p ++ c :: q)
  | delete (p q : List α) (c : α) : Edit (p ++ c :: q) (p ++ q)
  | subst (p q : List α) (c d : α) : Edit (p ++ c :: q) (p ++ d :: q)

/-- `EditsIn k s t`: `k` edits lead from `s` to `t`. -/
inductive EditsIn : Nat → List α → List α → Prop
  | zero (s) : EditsIn 0 s s
  | step {k s u t} : Edit s u → EditsIn k u t → EditsIn (k + 1) s t

/-- `k` is the least number of edits from `s` to `t`. -/
def IsEditDistance (s t : List α) (k : Nat) : Prop :=
  EditsIn k s t ∧ ∀ j, EditsIn j s t → k ≤ j

end Verif.SpellChkr
