import Verif.Model.BuiltIn
import Verif.Spec.RegField
/-!
# Specification vocabulary for the sequence of built-in tests
-/
namespace Verif.BuiltIn

/-- The bit of `tests` that asks for a test (`UVM_DO_REG_HW_RESET`, ..., as documented in uvm_reg_model.py 278-296). -/
def bitNo : Test → Nat
  | .reset => 0 | .bash => 1 | .access => 2 | .memAccess => 3 | .shared => 4 | .memWalk => 5

/-- The test is asked for. -/
def Asked (tests : Nat) (t : Test) : Prop := tests.testBit (bitNo t) = true

/-- The resources that keep the block from being given to a test. -/
def excluders : Test → List String
  | .reset => ["NO_REG_TESTS", "NO_REG_HW_RESET_TEST"]
  | .bash => ["NO_REG_TESTS", "NO_REG_BIT_BASH_TEST"]
  | .access => ["NO_REG_TESTS", "NO_REG_ACCESS_TEST"]
  | .memAccess => ["NO_REG_TESTS", "NO_MEM_TESTS", "NO_MEM_ACCESS_TEST"]
  | .shared => ["NO_REG_TESTS", "NO_REG_SHARED_ACCESS_TEST"]
  | .memWalk => ["NO_REG_TESTS", "NO_MEM_WALK_TEST"]

/-- One of them is set. -/
def Excluded (res : String → Bool) (t : Test) : Prop := ∃ x ∈ excluders t, res x = true

/-- Only the two tests of registers through the bus are run. -/
def RegistersOnly (tests : Nat) (res : String → Bool) : Prop := ∀ t ∈ plan tests res, t = .reset ∨ t = .bash

/-- Reading the register does not change it, according to the documented table of access policies. -/
def ReadsKeep (r : Reg.Reg) : Prop := ∀ x ∈ r.fields, (RegField.doc x.f.access).2 = .noEffect

end Verif.BuiltIn
