import Verif.Model.RegPredictor
/-! # What explicit prediction should do -/
namespace Verif.RegPredictor
open Verif.Reg Verif.RegField

/-- The observed transaction is for register `r`. -/
def Targets (c : Conf) (r : Nat) (b : Beat) : Bool := c.rg b.addr b.read == some r

/-- The beats are one whole transfer of register `r`: each of its addresses once, in some order, all reads or all writes, each of the width of the bus. -/
structure Transfer (c : Conf) (r : Nat) (read : Bool) (l : List Beat) : Prop where
  addrs : (l.map (·.addr)).Perm (c.addrs r)
  kind : ∀ b ∈ l, b.read = read
  width : ∀ b ∈ l, b.data < 2 ^ (8 * c.w)

/-- `v` is the value transferred: the word for the register's `i`-th address is that of the beat at that address. -/
def Assembles (c : Conf) (r : Nat) (l : List Beat) (v : Nat) : Prop :=
  v < 2 ^ (8 * c.w * (c.addrs r).length) ∧
  ∀ i a, (c.addrs r)[i]? = some a → ∀ b ∈ l, b.addr = a → v / 2 ^ (8 * c.w * i) % 2 ^ (8 * c.w) = b.data

/-- The addresses of the register in the map lead to it, for either kind of access that finds it. -/
def Sound (c : Conf) : Prop := ∀ a read r, c.rg a read = some r → a ∈ c.addrs r

/-- No byte enables are reported. -/
def Plain (l : List Beat) : Prop := ∀ b ∈ l, b.be = -1

/-- The events concerning register `r`. -/
def about (r : Nat) (l : List Ev) : List Ev := l.filter fun e => e.reg == r

end Verif.RegPredictor
