import Verif.Model.ObjPack
/-! # What is packed of an object: its integers, depth first -/
namespace Verif.ObjPack

/-- The places (object and field) of the integers that the fields `fs` of `o` lead to, in order; `rec q`: those of object `q`. `none` if a packed field
holds something else. -/
def placesOf (h : Heap) (rec : Nat → Option (List (Nat × Nat))) (o : Nat) : List (Nat × Nat) → Option (List (Nat × Nat))
  | [] => some []
  | (f, mask) :: fs =>
    if mask &&& 512 ≠ 0 then placesOf h rec o fs                -- UVM_NOPACK
    else match (h o).vals f with
      | .int _ => (placesOf h rec o fs).map ((o, f) :: ·)
      | .obj q => (rec q).bind fun l => (placesOf h rec o fs).map (l ++ ·)
      | _ => none

/-- The places of the integers of object `o` and of the objects below it, if there are no other values and the references end after fewer than `d`
steps. -/
def places (h : Heap) : Nat → Nat → Option (List (Nat × Nat))
  | 0, _ => none
  | d + 1, o => placesOf h (places h d) o (h o).fields

/-- The integers at the places `l`. -/
def valuesAt (h : Heap) (l : List (Nat × Nat)) : List Nat := l.map fun p => match (h p.1).vals p.2 with
  | .int v => v
  | _ => 0

/-- The last of the values that is not zero. -/
def lastNonzero (vs : List Nat) : Option Nat := vs.reverse.find? (· ≠ 0)

/-- The objects in `dom` refer only to each other. -/
def Closed (h : Heap) (dom : List Nat) : Prop := ∀ o ∈ dom, ∀ f q, (h o).vals f = .obj q → q ∈ dom

end Verif.ObjPack
