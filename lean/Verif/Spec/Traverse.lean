import Verif.Model.Traverse
/-! # Specification vocabulary for traversals -/
namespace Verif.Traverse

/-- `l` lists the trees with roots `cs`, every component once, parents before children, siblings in order. -/
inductive Pre (kids : Nat → List Nat) : List Nat → List Nat → Prop
  | nil : Pre kids [] []
  | cons {c : Nat} {cs l m : List Nat} : Pre kids (kids c) l → Pre kids cs m → Pre kids (c :: cs) (c :: l ++ m)

/-- The same with children before parents. -/
inductive Post (kids : Nat → List Nat) : List Nat → List Nat → Prop
  | nil : Post kids [] []
  | cons {c : Nat} {cs l m : List Nat} : Post kids (kids c) l → Post kids cs m → Post kids (c :: cs) (l ++ c :: m)

/-- `x` is `c` or below it. -/
inductive Desc (kids : Nat → List Nat) (c : Nat) : Nat → Prop
  | refl : Desc kids c c
  | step {p x : Nat} : Desc kids c p → x ∈ kids p → Desc kids c x

/-- The components form trees: children are created after their parent, and nobody is a child twice. -/
structure Tree (s : State) : Prop where
  lt : ∀ p x, x ∈ s.kids p → p < x ∧ x < s.next
  one : ∀ p q x, x ∈ s.kids p → x ∈ s.kids q → p = q
  nodup : ∀ p, (s.kids p).Nodup

/-- From `s` to `s'` only `c` and what is below it changed: new components may have been added at the end of the children
of a component, and iteration pointers may have moved. -/
structure Below (c : Nat) (s s' : State) : Prop where
  tree : Tree s'
  next : s.next ≤ s'.next
  kids : ∀ d, d < s.next → ¬ Desc s.kids c d → s'.kids d = s.kids d ∧ s'.ptr d = s.ptr d
  grow : ∀ d, d < s.next → ∃ l, s'.kids d = s.kids d ++ l ∧ ∀ x ∈ l, s.next ≤ x

/-- What is done for a component only adds components at or below it and moves pointers at or below it. -/
def Builds (ex : Nat → State → State) : Prop := ∀ c s, Tree s → c < s.next → Below c s (ex c s)

/-- What is done for a component adds nothing and moves pointers only at or below it. -/
def Keeps (ex : Nat → State → State) : Prop :=
  ∀ c s, (ex c s).kids = s.kids ∧ (ex c s).next = s.next ∧ ∀ d, ¬ Desc s.kids c d → (ex c s).ptr d = s.ptr d

end Verif.Traverse
