import Verif.Model.RegTestsAll
/-!
# Model of `UVMRegMemBuiltInSeq` (src/uvm/reg/sequences/uvm_reg_mem_built_in_seq.py)

The sequence that runs a selection of the built-in tests.  Simplified: the resources that exclude the block from tests do not change while it runs; messages that
are not errors are left out.  The tests of registers are those of `Verif.Model.RegTestsAll`; the others are a parameter.  `none` is a raised exception.
-/
namespace Verif.BuiltIn
open Verif.Reg Verif.RegField Verif.RegAccess Verif.RegMap Verif.RegSystem Verif.RegTests

/-- uvm_reg_model.py 278-283: the tests that can be asked for. -/
inductive Test where
  | reset | bash | access | memAccess | shared | memWalk
deriving DecidableEq, Repr

/-- 76-141: the tests run, in order.  `tests`: the variable of that name (59); `res name`: there is a resource of that name for the block.
The branch of the shared access test (122-131) is commented out. -/
def plan (tests : Nat) (res : String → Bool) : List Test :=
  (if tests &&& 0x01 ≠ 0 ∧ res "NO_REG_TESTS" = false ∧ res "NO_REG_HW_RESET_TEST" = false then [.reset] else []) ++                                -- 76-84
  (if tests &&& 0x02 ≠ 0 ∧ res "NO_REG_TESTS" = false ∧ res "NO_REG_BIT_BASH_TEST" = false then [.bash] else []) ++                                 -- 86-94
  (if tests &&& 0x04 ≠ 0 ∧ res "NO_REG_TESTS" = false ∧ res "NO_REG_ACCESS_TEST" = false then [.access] else []) ++                                 -- 97-105
  (if tests &&& 0x08 ≠ 0 ∧ res "NO_REG_TESTS" = false ∧ res "NO_MEM_TESTS" = false ∧ res "NO_MEM_ACCESS_TEST" = false then [.memAccess] else []) ++  -- 108-118
  (if tests &&& 0x20 ≠ 0 ∧ res "NO_REG_TESTS" = false ∧ res "NO_MEM_WALK_TEST" = false then [.memWalk] else [])                                     -- 133-141

/-- 83, 93, 104, 117, 140: one test is run to its end; the errors reported so far are counted. -/
def runOne {σ} (run : Test → σ → Option (σ × Nat)) (t : σ × Nat) (k : Test) : Option (σ × Nat) := (run k t.1).map fun o => (o.1, t.2 + o.2)

/-- 67-141: `body`.  `model`: a block was given; without one there is an error (69-71). -/
def body {σ} (run : Test → σ → Option (σ × Nat)) (model : Bool) (tests : Nat) (res : String → Bool) (s : σ) : Option (σ × Nat) :=
  if model = false then some (s, 1)
  else (plan tests res).foldlM (runOne run) (s, 0)

/-- The tests on the registers of a block.  `rb`: `reset_blk`, what the user does to the hardware before each test.  `bR`, `bB`: the block as the two tests
see it (the resources that exclude blocks and registers have different names).
uvm_reg_hw_reset_seq.py 79-89; uvm_reg_bit_bash_seq.py 224-241: `reset_blk`, the model is reset, `do_block`. -/
def tester {n : Nat} {σ} (rb : σ → σ) (bus : Bus σ) (order : Order) (w : Nat) (ports : Fin n → Port) (h : Hooks) (fuel : Nat) (bR bB : Blk)
    (more : Test → State n σ → Option (State n σ × Nat)) : Test → State n σ → Option (State n σ × Nat)
  | .reset, st => resetTest bus order w ports h fuel bR ⟨st.regs, rb st.dev⟩
  | .bash, st => bashTest bus order w ports h fuel bB ⟨fun i => Reg.reset (st.regs i) "HARD", rb st.dev⟩
  | k, st => more k st

end Verif.BuiltIn
