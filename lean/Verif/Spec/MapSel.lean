import Verif.Model.MapSel
/-! # What maps contain -/
namespace Verif.MapSel

/-- The maps above a map, nearest first. -/
def above : RMap → List RMap
  | .root _ => []
  | .sub _ p => p :: above p

/-- An access through the map named `m` reaches what is in the map `l`: `l` is that map, or that map is above `l`. -/
def Reaches (m : Nat) (l : RMap) : Prop := l.name = m ∨ ∃ a ∈ above l, a.name = m

/-- What a memory made with access `acc` allows where its rights are `r`: what both allow; `none` if nothing. -/
def restrict (acc r : Mode) : Option Mode :=
  match acc, r with
  | a, .rw => some a
  | .rw, b => some b
  | .ro, .ro => some .ro
  | .wo, .wo => some .wo
  | _, _ => none

/-- Names are identities among the maps of an element and a given map. -/
def Named (maps : List RMap) (m : RMap) : Prop := ∀ l ∈ maps, l.name = m.name → l = m

end Verif.MapSel
