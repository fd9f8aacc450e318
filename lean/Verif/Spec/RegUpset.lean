import Verif.Spec.RegChip
/-! # Specification vocabulary for a chip that also changes by itself -/
namespace Verif.RegChip
open Verif.Reg Verif.RegField Verif.RegAccess Verif.RegMap Verif.RegSystem Verif.RegConc

/-- What happens to a block and its chip: an operation on a register through the model, or something else gives the word at an address other bits. -/
inductive Ev (n : Nat) where
  | op (i : Fin n) (o : RegAccess.Op)
  | upset (a : Nat) (bits : Nat → Bool)

/-- The chip after an upset. -/
def upset (s : Nat → Cell) (a : Nat) (bits : Nat → Bool) : Nat → Cell := fun b => if b = a then ⟨bits, (s a).written⟩ else s b

/-- A history with upsets, with what the callers of the operations saw. -/
def runU {n : Nat} (ports : Fin n → Port) (devs : Fin n → Reg → Dev (Nat → Cell)) :
    RegSystem.State n (Nat → Cell) → List (Ev n) → Option (RegSystem.State n (Nat → Cell) × List Out)
  | st, [] => some (st, [])
  | st, .op i o :: evs =>
    match RegSystem.step ports devs st (i, o) with
    | none => none
    | some (st', out) => (runU ports devs st' evs).map fun q => (q.1, out :: q.2)
  | st, .upset a bits :: evs => runU ports devs { st with dev := upset st.dev a bits } evs

/-- Model and chip agree on whether the register was written since the hard reset; the bits may differ. -/
def SameAge (addrs : List Nat) (s : Nat → Cell) (r : Reg) : Prop := ∀ x ∈ r.fields, ∀ a ∈ addrs, (s a).written = x.f.written

/-- Some bit of a field that is compared is not what its mirror says. -/
def Deviates (w : Nat) (addrs : List Nat) (s : Nat → Cell) (r : Reg) : Prop :=
  ∃ x ∈ r.fields, x.f.check = true ∧ ∃ j, j < x.f.size ∧ x.f.mirrored.testBit j ≠ bitOf w addrs s (x.lsb + j)

end Verif.RegChip
