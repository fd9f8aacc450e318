import Verif.Model.Comparator
import Verif.Util.Machine
/-! # What an in-order comparator history looks like from outside -/
namespace Verif.Comparator
variable {α : Type}

/-- Everything written to the before export, in order. -/
def befores : List (Ev α) → List α
  | [] => []
  | .writeBefore x :: es => x :: befores es
  | _ :: es => befores es

/-- Everything written to the after export, in order. -/
def afters : List (Ev α) → List α
  | [] => []
  | .writeAfter x :: es => x :: afters es
  | _ :: es => afters es

/-- All pairs published, in order. -/
def published (comp : α → α → Bool) (es : List (Ev α)) : List (Pair α) := (run (step comp) init es).2.flatten

/-- Pair the i-th after with the i-th before transaction, and compare them. -/
def pairUp (comp : α → α → Bool) (as bs : List α) : List (Pair α) :=
  List.zipWith (fun a b => ⟨a, b, comp b a⟩) as bs

/-- The pairs published since the last `flush`, given those in `acc` before. `ps` are the pairs each transition
published. -/
def sinceFlush (acc : List (Pair α)) : List (Ev α) → List (List (Pair α)) → List (Pair α)
  | .flush :: es, _ :: ps => sinceFlush [] es ps
  | _ :: es, p :: ps => sinceFlush (acc ++ p) es ps
  | _, _ => acc

/-- `run_phase` was started and the scheduler has nothing left to resume. -/
def Settled (s : State α) : Prop :=
  s.pc ≠ .notStarted ∧ s.before.m.tasks 0 ≠ .getWoken ∧ s.after.m.tasks 0 ≠ .getWoken

end Verif.Comparator
