import Verif.Model.MapInit
/-!
# Overlaps in an address map
-/
namespace Verif.MapInit

/-- A memory and a memory or register entered later share an address. -/
def Clash : Item → Item → Prop
  | .mem _ lo hi, .mem _ lo' hi' => ∃ a, (lo ≤ a ∧ a ≤ hi) ∧ lo' ≤ a ∧ a ≤ hi'
  | .mem _ lo hi, .reg e => ∃ a ∈ e.addrs, lo ≤ a ∧ a ≤ hi
  | .reg _, _ => False

/-- The registers. -/
def regs (l : List Item) : List RegMap.Entry := l.filterMap fun x => match x with | .reg e => some e | .mem .. => none

/-- Memory ranges are not empty. -/
def Proper (l : List Item) : Prop := ∀ m lo hi, .mem m lo hi ∈ l → lo ≤ hi

end Verif.MapInit
