import Verif.Model.Port
/-! # What connecting ports means: the connection graph -/
namespace Verif.Port

/-- `Conn s p q`: port `p` was connected to provider `q`. -/
def Conn (s : State) (p q : Nat) : Prop := ∃ k, (k, q) ∈ (s.node p).providedBy

/-- `Reaches s p i`: following connections from `p` leads to the implementation `i`. -/
inductive Reaches (s : State) : Nat → Nat → Prop
  | here (i) : (s.node i).kind = .imp → Reaches s i i
  | via {p q i} : Conn s p q → Reaches s q i → Reaches s p i

/-- Connections lead downwards for some ranking: there is no cycle. -/
def Acyclic (s : State) (rank : Nat → Nat) : Prop := ∀ p q, Conn s p q → rank q < rank p

/-- Keep the first occurrence of each element. -/
def firsts : List Nat → List Nat
  | [] => []
  | x :: l => x :: (firsts l).filter (· ≠ x)

/-- The implementations behind a port in connection order: those behind the first provider, then those behind the
second that were not there yet, and so on. `n` is the depth of the graph. -/
def order (s : State) : Nat → Nat → List Nat
  | 0, _ => []
  | n + 1, p =>
    if (s.node p).kind = .imp then [p]
    else firsts (((s.node p).providedBy.map (·.2)).flatMap (order s n))

/-- A network as it is before binding: fresh ports of any kinds, connected by any list of calls. -/
def built (nm : Nat → String) (node : Nat → Node) (calls : List (Nat × Option Nat)) : State :=
  calls.foldl (fun s c => (connect nm s c.1 c.2).1) ⟨node, []⟩

/-- All ports are as created. -/
def Fresh (node : Nat → Node) : Prop :=
  ∀ p, (node p).providedBy = [] ∧ (node p).providedTo = [] ∧ (node p).imps = [] ∧ (node p).resolved = false

end Verif.Port
