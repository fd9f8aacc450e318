import Verif.Model.Packer
/-! # Vocabulary for the packer properties -/
namespace Verif.Packer

/-- A packer that has only been packed into: no bit is set at or above the pack position. -/
def Clean (p : State) : Prop := ∀ i, p.count ≤ i → p.bits.testBit i = false

/-- Total width of a list of fields. -/
def width (fs : List (Nat × Nat)) : Nat := (fs.map (·.2)).sum

/-- Each value fits its (non-empty) field. -/
def Fits (fs : List (Nat × Nat)) : Prop := ∀ f ∈ fs, 1 ≤ f.2 ∧ f.1 < 2 ^ f.2

/-- The `n` bits of `v` mirrored. -/
def Mirrored (n v r : Nat) : Prop := ∀ i, r.testBit i = (decide (i < n) && v.testBit (n - 1 - i))

end Verif.Packer

namespace Verif.Packer

/-- The number whose `w`-bit digits, least significant first, are the given elements. -/
def recombine (w : Nat) : List Nat → Nat
  | [] => 0
  | e :: es => e + 2 ^ w * recombine w es

/-- `es` and `fs` are the same elements with the bits of every element mirrored. -/
def MirroredElems (w : Nat) : List Nat → List Nat → Prop
  | [], [] => True
  | e :: es, f :: fs => Mirrored w e f ∧ MirroredElems w es fs
  | _, _ => False

end Verif.Packer
