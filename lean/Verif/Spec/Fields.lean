import Verif.Model.Fields
/-! # Specification vocabulary for field registration -/
namespace Verif.Fields

/-- The class that is open after a series of calls. -/
def openAfter (ops : List Op) : Option Nat :=
  ops.foldl (fun cur o => match o with
    | .start c => some c
    | .field _ _ => cur
    | .finish c => if cur = some c then none else cur) none

/-- The fields declared for class `c`, in order, with the masks given, reading the calls (`cur`: the class open). -/
def declaredFrom (attrs : Nat → Nat → Bool) (c : Nat) : Option Nat → List Op → List (Nat × Nat)
  | _, [] => []
  | _, .start d :: ops => declaredFrom attrs c (some d) ops
  | cur, .field f m :: ops =>
    if cur = some c ∧ attrs c f = false then (f, m) :: declaredFrom attrs c cur ops else declaredFrom attrs c cur ops
  | cur, .finish d :: ops => declaredFrom attrs c (if cur = some d then none else cur) ops

def declared (attrs : Nat → Nat → Bool) (ops : List Op) (c : Nat) : List (Nat × Nat) := declaredFrom attrs c none ops

/-- The fields declared for `c`, each with the mask of its last declaration. -/
def fieldsOf (attrs : Nat → Nat → Bool) (ops : List Op) (c : Nat) : List (Nat × Nat) :=
  (declared attrs ops c).map (fun p => (p.1, ((declared attrs ops c).reverse.lookup p.1).getD 0))

/-- No class starts its registration when an ancestor of it has already registered. -/
def BasesLast (anc : Nat → List Nat) (ops : List Op) : Prop :=
  ∀ pre c rest, ops = pre ++ .start c :: rest → ∀ d ∈ anc c, .start d ∉ pre

end Verif.Fields
