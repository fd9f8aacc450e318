import Verif.Model.VReg
/-!
# Bits and locations of virtual registers
-/
namespace Verif.VReg

/-- The field covers this bit of its register. -/
def Covers (x : VF) (i : Nat) : Prop := x.lsb ≤ i ∧ i < x.lsb + x.size

/-- No bit is covered by two of the fields. -/
def NoOverlap (xs : List VF) : Prop := xs.Pairwise fun x y => ¬ ∃ i, Covers x i ∧ Covers y i

/-- The locations a register of so many bytes needs: the least number with room for them. -/
def Needs (nBytes memBytes : Nat) (k : Int) : Prop := (nBytes : Int) ≤ k * memBytes ∧ ∀ j, (nBytes : Int) ≤ j * memBytes → k ≤ j

end Verif.VReg
