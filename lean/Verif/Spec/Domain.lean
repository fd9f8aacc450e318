import Verif.Model.Domain
import Verif.Spec.PhaseRun
/-!
# The documented phases of UVM and their order
-/
namespace Verif.Domain

/-- The documented common phases, in order. -/
def docCommon : List String :=
  ["build", "connect", "end_of_elaboration", "start_of_simulation", "run", "extract", "check", "report", "final"]

/-- The documented run-time phases, in order. -/
def docRuntime : List String :=
  ["pre_reset", "reset", "post_reset", "pre_configure", "configure", "post_configure", "pre_main", "main", "post_main", "pre_shutdown", "shutdown",
   "post_shutdown"]

/-- `a` comes before `b`: within the common phases, within the run-time phases, or because the run-time phases take the
place of the run phase among the common phases. -/
def DocBefore (a b : String) : Prop :=
  [a, b].Sublist docCommon ∨ [a, b].Sublist docRuntime ∨ ([a, "run"].Sublist docCommon ∧ b ∈ docRuntime) ∨ (a ∈ docRuntime ∧ ["run", b].Sublist docCommon)

instance (a b : String) : Decidable (DocBefore a b) := by unfold DocBefore; infer_instance

/-- The phase at place `p` of the schedule is called `name`. -/
def Called (t : List (Option String × List Nat × List Nat)) (p : Nat) (name : String) : Prop := t[p]?.map (·.1) = some (some name)

instance (t : List (Option String × List Nat × List Nat)) (p : Nat) (name : String) : Decidable (Called t p name) := by unfold Called; infer_instance

end Verif.Domain
