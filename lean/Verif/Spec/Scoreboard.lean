import Verif.Model.Scoreboard
import Verif.Spec.Port
import Verif.Spec.Comparator
import Verif.Spec.TlmFifo
import Verif.Spec.Sequencer
/-! # What a checking environment is told, in terms of the writes and of the connections made -/
namespace Verif.Scoreboard
variable {α : Type}

/-- `net` is the network after the connections `calls` were made and the ports `ps` were bound: distinct ports have distinct names, no port
was used before, and the connections have no cycle. -/
structure Wired (nm : Nat → String) (node : Nat → Port.Node) (calls : List (Nat × Option Nat)) (ps : List Nat) (net : Port.State) : Prop where
  names : ∀ a b, nm a = nm b → a = b
  fresh : Port.Fresh node
  bound : ∃ rank depth, Port.Acyclic (Port.built nm node calls) rank ∧ (∀ p ∈ ps, rank p < depth) ∧
    net = Port.resolveAll nm depth (Port.built nm node calls) ps

/-- The transactions written to the ports that `leads` selects, in the order in which they were written. -/
def writtenTo (leads : Nat → Bool) : List (Op α) → List α
  | [] => []
  | .write p x :: ops => if leads p then x :: writtenTo leads ops else writtenTo leads ops
  | _ :: ops => writtenTo leads ops

/-- Only ports among `ps` are written. -/
def WritesIn (ps : List Nat) (ops : List (Op α)) : Prop := ∀ p x, .write p x ∈ ops → p ∈ ps

/-- `leads` says of each of the ports `ps` whether the connections lead from it to implementation `i`. -/
def LeadsTo (s0 : Port.State) (ps : List Nat) (i : Nat) (leads : Nat → Bool) : Prop := ∀ p ∈ ps, leads p = true ↔ Port.Reaches s0 p i

/-- The operations of the sequencer, its sequences and its driver, in order. -/
def seqOps : List (BOp α) → List Sequencer.Op
  | [] => []
  | .seq o :: l => o :: seqOps l
  | .other _ :: l => seqOps l

/-- Everything else, in order. -/
def otherOps : List (BOp α) → List (Op α)
  | [] => []
  | .other o :: l => o :: otherOps l
  | .seq _ :: l => otherOps l

end Verif.Scoreboard
