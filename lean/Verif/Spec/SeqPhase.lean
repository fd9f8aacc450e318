import Verif.Model.SeqPhase
import Verif.Spec.PhaseObj
import Verif.Spec.SeqStart
/-! # Specification vocabulary for sequences that object to their starting phase -/
namespace Verif.SeqPhase
open Verif.SeqStart (Seq Hook Script Act)

/-- The call on phases or objections that an operation makes. -/
def made (s : State) : Op → Option PhaseObj.Op
  | .base o => some o
  | .adv i => match (s.sq i).todo with
    | [] => none
    | p :: _ => call i (s.sq i).seq p
  | _ => none

/-- Nobody clears objections or uses the sequences `isSeq` as source of an objection but these sequences themselves. -/
def Own (isSeq : Nat → Bool) : Op → Prop
  | .base (.obj _ (.raise i _)) => isSeq i = false
  | .base (.obj _ (.drop i _)) => isSeq i = false
  | .base (.obj _ .clear) => False
  | .base _ => True
  | .begin i _ _ => isSeq i = true
  | .act i _ => isSeq i = true
  | .adv i => isSeq i = true

/-- A history of such operations in which the accounting of objections is right. -/
def Fair (C : Cfg) (N : Nat) (isSeq : Nat → Bool) : State → List Op → Prop
  | _, [] => True
  | s, o :: ops => ((∀ x ∈ made s o, PhaseObj.OpAllowed C.G C.t N s.base x) ∧ Own isSeq o) ∧ Fair C N isSeq (step C s o) ops

/-- The same, and whenever the background process of an objection wakes up, at most one drain waits. -/
def FairOne (C : Cfg) (N : Nat) (isSeq : Nat → Bool) : State → List Op → Prop
  | _, [] => True
  | s, o :: ops => ((∀ x ∈ made s o, PhaseObj.OpAllowed C.G C.t N s.base x ∧ PhaseObj.OneDrain C.G s.base x) ∧ Own isSeq o) ∧ FairOne C N isSeq (step C s o) ops

/-- The sequence runs: its automatic objection was made if it was to be made, and not yet withdrawn. -/
def Running (x : Sq) : Prop := SeqStart.Step.dropObj ∈ x.todo ∧ SeqStart.Step.raiseObj ∉ x.todo

instance (x : Sq) : Decidable (Running x) := inferInstanceAs (Decidable (_ ∧ _))

end Verif.SeqPhase
