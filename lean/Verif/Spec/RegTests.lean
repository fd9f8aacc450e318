import Verif.Model.RegTests
import Verif.Spec.RegAccess
/-! # What the built-in register tests should do -/
namespace Verif.RegTests
open Verif.Reg Verif.RegField Verif.RegAccess

/-- The register and its fields lie within the 64 bits of a data word. -/
def Narrow (r : Reg) : Prop := r.nBits ≤ 64 ∧ ∀ x ∈ r.fields, x.lsb + x.f.size ≤ 64

/-- A map through which the register can be read and written, with automatic prediction and no unusable callbacks. -/
def Open {σ} (m : Via σ) : Prop :=
  m.cfg.route = .front .RW ∧ m.rights = .RW ∧ m.cfg.auto = true ∧ ∀ i, m.cfg.bare i = false

/-- Bit `k` belongs to a plain read/write field that is compared. -/
def TestedBit (r : Reg) (k : Nat) : Prop :=
  k < r.nBits ∧ ∃ x ∈ r.fields, Covers x k ∧ x.f.access = .RW ∧ x.f.check = true

/-- The block `c` is `b` or lies below it. -/
inductive In (c : Blk) : Blk → Prop where
  | self : In c c
  | sub {b d : Blk} : d ∈ b.blks → In c d → In c b

/-- The block or register is not excluded, and the register is listed in the block. -/
def Listed (b : Blk) (r : Nat) : Prop := b.skip = false ∧ (r, false) ∈ b.regs

mutual
/-- Levels of blocks. -/
def height : Blk → Nat
  | .mk _ _ _ bs => heights bs + 1
def heights : List Blk → Nat
  | [] => 0
  | b :: bs => max (height b) (heights bs)
end

end Verif.RegTests
