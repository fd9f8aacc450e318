import Verif.Spec.RegSystem
import Verif.Spec.RegConc
/-! # Specification vocabulary for the registers of a block in a chip that follows the documented access policies -/
namespace Verif.RegChip
open Verif.Reg Verif.RegField Verif.RegAccess Verif.RegMap Verif.RegSystem Verif.RegConc

/-- What the chip keeps behind one address: the bits of the word, and whether it was written since the hard reset. -/
structure Cell where
  bit : Nat → Bool
  written : Bool

/-- The bit can be read. -/
def readable : Option Acc → Bool
  | none => false
  | some a => decide ((doc a).2 ≠ .error ∧ a ≠ .NOACCESS)

/-- A chip with words of `w` bytes, where bit `b` of the word at address `a` has the documented policy `pol a b` (`none`: reserved, reads as 0,
writes are ignored).  The effects are those of the table in the documentation of `set_access`, bit by bit; no access is refused. -/
def chipCell (w : Nat) (pol : Nat → Nat → Option Acc) (a : Nat) (c : Cell) (op : BusOp) : Cell × Nat × Bool :=
  match op.kind with
  | .write => (⟨fun b => match pol a b with
      | some acc => (doc acc).1.bit c.written (c.bit b) (op.data.testBit b)
      | none => c.bit b, true⟩, 0, true)
  | .read => (⟨fun b => match (pol a b).map fun acc => (doc acc).2 with
      | some .clears => false
      | some .sets => true
      | _ => c.bit b, c.written⟩, ofBits (8 * w) fun b => readable (pol a b) && c.bit b, true)

/-- The chip on the bus. -/
def chip (w : Nat) (pol : Nat → Nat → Option Acc) : Bus (Nat → Cell) := cellBus (chipCell w pol)

/-- Bit `k` of the register with the given addresses, the first one lowest, is in this word. -/
def wordOf (w : Nat) (addrs : List Nat) (k : Nat) : Nat := addrs.getD (k / (8 * w)) 0

/-- Bit `k` of a register, as it is in the chip. -/
def bitOf (w : Nat) (addrs : List Nat) (s : Nat → Cell) (k : Nat) : Bool := (s (wordOf w addrs k)).bit (k % (8 * w))

/-- The chip has the register the model describes: every bit of a field has the policy of the field, all other bits of its words are reserved. -/
structure Wired (w : Nat) (pol : Nat → Nat → Option Acc) (addrs : List Nat) (r : Reg) : Prop where
  fields : ∀ x ∈ r.fields, ∀ k, Covers x k → pol (wordOf w addrs k) (k % (8 * w)) = some x.f.access
  rest : ∀ k, k < 8 * w * addrs.length → (∀ x ∈ r.fields, ¬ Covers x k) → pol (wordOf w addrs k) (k % (8 * w)) = none
  fits : ∀ x ∈ r.fields, x.lsb + x.f.size ≤ 8 * w * addrs.length

/-- The mirror of every field is what the chip has, and model and chip agree on whether the register was written since the hard reset. -/
def Mirrors (w : Nat) (addrs : List Nat) (s : Nat → Cell) (r : Reg) : Prop :=
  ∀ x ∈ r.fields, (∀ j, j < x.f.size → x.f.mirrored.testBit j = bitOf w addrs s (x.lsb + j)) ∧ ∀ a ∈ addrs, (s a).written = x.f.written

/-- All fields can be read. -/
def AllReadable (r : Reg) : Prop := ∀ x ∈ r.fields, Readable x.f.access

end Verif.RegChip
