import Verif.Model.Reg
import Verif.Spec.RegField
/-! # Registers as collections of bit ranges -/
namespace Verif.Reg

/-- The field occupies bit `i` of the register. -/
def Covers (x : RF) (i : Nat) : Prop := x.lsb ≤ i ∧ i < x.lsb + x.f.size

instance (x : RF) (i : Nat) : Decidable (Covers x i) := inferInstanceAs (Decidable (_ ∧ _))

/-- Two fields share a bit. -/
def Overlap (x y : RF) : Prop := ∃ i, Covers x i ∧ Covers y i

/-- No two fields share a bit. -/
def NoOverlap (fs : List RF) : Prop := fs.Pairwise fun x y => ¬ Overlap x y

/-- Ordered by bit position. -/
def Sorted (fs : List RF) : Prop := fs.Pairwise fun x y => x.lsb ≤ y.lsb

/-- Bit `i` of a value assembled from the fields: the bit of the field that occupies it, 0 if none does. -/
def assembled (fs : List RF) (val : RF → Nat) (i : Nat) : Bool :=
  match fs.find? (fun x => decide (Covers x i)) with
  | some x => (val x).testBit (i - x.lsb)
  | none => false

/-- The policy writes the value as it is. -/
def PlainWrite (a : RegField.Acc) : Prop := (RegField.doc a).1 = .asIs

end Verif.Reg
