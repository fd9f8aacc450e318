import Verif.Model.RegTests
import Verif.Model.RegSystem
/-!
# The built-in register tests of a block, down to the words on the bus

`UVMRegBitBashSeq.do_block` (src/uvm/reg/sequences/uvm_reg_bit_bash_seq.py 247-272) and `UVMRegHWResetSeq.body`, `do_block`
(src/uvm/reg/sequences/uvm_reg_hw_reset_seq.py 75-149) with the registers of one block in one map: the walks of `Verif.Model.RegTests` pick the registers, the tests
of single registers access them through the map as in `Verif.Model.RegSystem`.
-/
namespace Verif.RegTests
open Verif.Reg Verif.RegField Verif.RegAccess Verif.RegMap Verif.RegSystem

/-- What register `i` is accessed through: its map. -/
def via {n : Nat} {σ} (bus : Bus σ) (order : Order) (w : Nat) (ports : Fin n → Port) (i : Fin n) (r : Reg) : Via σ :=
  ⟨(ports i).cfg, (ports i).rt, regDev bus order w r.nBits (ports i).addrs⟩

/-- The test of the register named `k` (262-265; uvm_reg_hw_reset_seq.py 137-144), the number of errors reported so far being kept. -/
def testOne {n : Nat} {σ} (test : Fin n → Reg → σ → Option (St σ)) (t : State n σ × Nat) (k : Nat) : Option (State n σ × Nat) :=
  if h : k < n then
    (test ⟨k, h⟩ (t.1.regs ⟨k, h⟩) t.1.dev).map fun o => (⟨fun j => if j = ⟨k, h⟩ then o.reg else t.1.regs j, o.dev⟩, t.2 + o.errs)
  else none

/-- uvm_reg_bit_bash_seq.py 247-272: the bit bash test of a block: state afterwards and errors reported. -/
def bashTest {n : Nat} {σ} (bus : Bus σ) (order : Order) (w : Nat) (ports : Fin n → Port) (h : Hooks) (fuel : Nat) (b : Blk) (st : State n σ) : Option (State n σ × Nat) := do
  let l ← bashBlock fuel b
  l.foldlM (testOne fun i r s => bashReg (ports i).dflt h [via bus order w ports i r] r s) (st, 0)

/-- uvm_reg_hw_reset_seq.py 75-149: the reset test of a block: the model is reset (88), then every register is checked. -/
def resetTest {n : Nat} {σ} (bus : Bus σ) (order : Order) (w : Nat) (ports : Fin n → Port) (h : Hooks) (fuel : Nat) (b : Blk) (st : State n σ) : Option (State n σ × Nat) := do
  let l ← hwBlock fuel b
  l.foldlM (testOne fun i r s => hwResetReg (ports i).cfg (regDev bus order w r.nBits (ports i).addrs) h (ports i).rt r s) (⟨fun i => Reg.reset (st.regs i) "HARD", st.dev⟩, 0)

end Verif.RegTests
