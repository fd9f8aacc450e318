import Verif.Model.PhaseObj
import Verif.Spec.PhaseRun
import Verif.Spec.Objection
/-! # Specification vocabulary for phases with their objections -/
namespace Verif.PhaseObj
open Verif.PhaseRun (Graph)

/-- Calls on the objection of a task phase for which the accounting of objections is right (`Verif.Objection.Allowed`): no negative counts, no raise that meets a
running drain, no `clear` by the user during a drain. -/
def OpAllowed (G : Graph) (t : Objection.Tree) (N : Nat) (s : State) : Op → Prop
  | .obj p x => G.kind p = .task → Objection.Allowed t N (s.ob p) x
  | _ => True

/-- A history with only such calls. -/
def Fair (G : Graph) (t : Objection.Tree) (N : Nat) : State → List Op → Prop
  | _, [] => True
  | s, o :: ops => OpAllowed G t N s o ∧ Fair G t N (step G t s o) ops

/-- Whenever the background process wakes up, at most one drain waits (`Verif.Objection.ReachOne`). -/
def OneDrain (G : Graph) (s : State) : Op → Prop
  | .obj p .bg => G.kind p = .task → (s.ob p).sched.length ≤ 1
  | _ => True

def FairOne (G : Graph) (t : Objection.Tree) (N : Nat) : State → List Op → Prop
  | _, [] => True
  | s, o :: ops => (OpAllowed G t N s o ∧ OneDrain G s o) ∧ FairOne G t N (step G t s o) ops

/-- Coroutines and tasks going on by themselves. -/
def Internal : Op → Prop
  | .adv _ | .spawn => True
  | .obj _ (.bg) | .obj _ (.start) | .obj _ (.notify _) | .obj _ (.finish _) => True
  | _ => False

end Verif.PhaseObj
