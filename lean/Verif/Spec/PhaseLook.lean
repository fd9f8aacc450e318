import Verif.Model.PhaseLook
/-!
# Chains of phases
-/
namespace Verif.PhaseLook

/-- Phase `b` is the first phase node on a way from `a` along `nx`: `a` itself, or on from schedules, domains and their ends. -/
inductive Via (kind : Nat → PhaseRun.Kind) (nx : Nat → List Nat) : Nat → Nat → Prop where
  | here : kind a ≠ .other → Via kind nx a a
  | on : kind a = .other → c ∈ nx a → Via kind nx c b → Via kind nx a b

/-- A way from `a` to `b` along `nb` through phases that are in `scope`. -/
inductive Way (nb : Nat → List Nat) (scope : Nat → Prop) : Nat → Nat → Prop where
  | here : Way nb scope a a
  | on : c ∈ nb a → scope c → Way nb scope c b → Way nb scope a b

/-- There are no endless ways along `nx`: every phase has a rank that falls on the way. -/
def Acyclic (nx : Nat → List Nat) (rank : Nat → Nat) : Prop := ∀ a, ∀ b ∈ nx a, rank b < rank a

/-- What it means for a state to satisfy a comparison. -/
def Meets (c : Call) (x : PhaseRun.St) : Prop :=
  match c.op with
  | .eq => c.state &&& x.code ≠ 0
  | .ne => c.state &&& x.code = 0
  | .gte => c.state ≤ x.code
  | .lt => x.code < c.state
  | .lte => x.code ≤ c.state
  | .gt => c.state < x.code

end Verif.PhaseLook
