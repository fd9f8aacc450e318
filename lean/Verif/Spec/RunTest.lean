import Verif.Model.RunTest
/-!
# Which test is asked for
-/
namespace Verif.RunTest

/-- The test asked for: the first `+UVM_TESTNAME=` of the command line, else the argument. -/
def Asked (p : Cmdline.Proc) (arg test : String) : Prop :=
  (∃ pre post, p.argv = pre ++ ("+UVM_TESTNAME=".toList ++ test.toList) :: post ∧ ∀ a ∈ pre, ¬ "+UVM_TESTNAME=".toList <+: a) ∨
  ((∀ a ∈ p.argv, ¬ "+UVM_TESTNAME=".toList <+: a) ∧ test = arg)

/-- A call of `run_test`: the state of the factory and the command line then, and the argument. -/
structure RunCall where
  env : Factory.Env
  fac : Factory.Factory
  fuel : Nat
  proc : Cmdline.Proc
  finish : Bool
  arg : String

/-- The children of the root after calls of `run_test` and top-level components made in between. -/
def history (children : List String) : List (RunCall ⊕ String) → List String
  | [] => children
  | .inl c :: l => history (runTest c.env c.fac c.fuel c.proc c.finish children c.arg).2 l
  | .inr n :: l => history (children ++ [n]) l

end Verif.RunTest
