import Verif.Model.RegAccessTest
import Verif.Spec.Hdl
import Verif.Spec.RegTests
/-! # A register that is one signal of the design, seen through maps and through the signal -/
namespace Verif.RegAccessTest
open Verif.Reg Verif.RegField Verif.RegAccess Verif.RegTests
open Verif.Hdl (Dut)

/-- The design with another value in signal `i`. -/
def deposit (d : Dut) (i v : Nat) : Dut := { d with val := fun j => if j = i then v % 2 ^ d.width i else d.val j }

/-- The fields of the register, as they are in the design, are the bits of signal `i` (and whether they were written, which a deposit does not change). -/
structure InSignal (view : Dut → List DF) (i : Nat) : Prop where
  fits : ∀ d x, x ∈ view d → x.value < 2 ^ x.size
  bits : ∀ d x, x ∈ view d → ∀ b, x.covers b → (d.val i).testBit b = x.value.testBit (b - x.lsb)
  deposit : ∀ d v, All2 (fun x y => y.lsb = x.lsb ∧ y.size = x.size ∧ y.acc = x.acc ∧ y.written = x.written) (view d) (view (deposit d i v))

/-- Nothing but the values of signals differs. -/
def SameDesign (d e : Dut) : Prop := e.top = d.top ∧ e.width = d.width ∧ e.verilator = d.verilator

/-- Accesses through the map change nothing but values of signals, and no bit of signal `i` that belongs to no field of `r`. -/
structure Wired (m : Dev Dut) (r : Reg) (i : Nat) : Prop where
  wr : ∀ d v, SameDesign d (m.wr d v).1
  rd : ∀ d, SameDesign d (m.rd d).1
  wrFree : ∀ d v b, b < r.nBits → Hdl.fieldAt r b = none → (((m.wr d v).1).val i).testBit b = (d.val i).testBit b
  rdFree : ∀ d b, b < r.nBits → Hdl.fieldAt r b = none → (((m.rd d).1).val i).testBit b = (d.val i).testBit b

end Verif.RegAccessTest
