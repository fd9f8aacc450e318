import Verif.Model.PhaseCalls
import Verif.Spec.PhaseRun
import Verif.Spec.Traverse
/-! # Specification vocabulary for the calls of phases -/
namespace Verif.PhaseCalls
open Verif

/-- `p` comes strictly before `q` in the schedule. -/
def Prior (G : PhaseRun.Graph) (p q : Nat) : Prop := ∃ r, PhaseRun.Before G p r ∧ r ∈ G.preds q

/-- `l` is the components that take part in phase `p`, each once: parents first for a top-down phase, else children first. -/
def Listed (C : Config) (kids : Nat → List Nat) (p : Nat) (l : List Nat) : Prop :=
  ∃ full, (if C.G.kind p ≠ .task ∧ C.top p = true then Traverse.Pre kids [0] full else Traverse.Post kids [0] full) ∧ l = full.filter (C.act p)

/-- The components on which `w` was called for phase `p`, in order. -/
def callsOf (s : State) (p : Nat) (w : Call) : List Nat :=
  (s.calls.filter fun e => e.1 == p && e.2.2 == w).map (·.2.1)

/-- Only the function phase `b`, which is top-down and before all others, creates components, each under the component it is called for. -/
structure Built (C : Config) (b : Nat) : Prop where
  kind : C.G.kind b = .func
  top : C.top b = true
  first : ∀ p, C.G.kind p ≠ .other → p ≠ b → Prior C.G b p
  builds : Traverse.Builds (C.ex b .exec)
  keeps : ∀ p w, ¬ (p = b ∧ w = .exec) → Traverse.Keeps (C.ex p w)

/-- Before the simulation: no phase has been run. -/
def start (t : Traverse.State) : State := { ph := {}, tree := t }

/-- The order of the calls for one component and one phase. -/
def Call.rank : Call → Nat
  | .started => 0 | .exec => 1 | .readyToEnd => 2 | .ended => 3

end Verif.PhaseCalls
