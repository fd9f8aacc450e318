import Verif.Model.Socket
import Verif.Spec.Port
/-!
# Specification: TLM2 sockets
-/
namespace Verif.Socket
open Verif

/-- The documented connections: from initiators and pass-through initiators to pass-through sockets and targets, from pass-through
targets to pass-through targets and targets, blocking to blocking and non-blocking to non-blocking. -/
def Valid (a b : Ty) : Prop :=
  a.nb = b.nb ∧ match a.role with
    | .init | .passInit => b.role ≠ .init
    | .passTarg => b.role = .passTarg ∨ b.role = .targ
    | .targ => False

instance (a b : Ty) : Decidable (Valid a b) := by
  unfold Valid
  cases a.role <;> infer_instance

/-- The initiators connected directly to the socket `b`, in the order of the calls. -/
def direct (ty : Nat → Ty) (b : Nat) : List (Nat × Option Nat) → List Nat
  | [] => []
  | (a, x) :: l => if x = some b ∧ (ty a).role = .init ∧ (ty a).nb = true then a :: direct ty b l else direct ty b l

/-- Sockets connected by any history, and the port objects `ps` bound in that order. -/
def built (nm : Nat → String) (ty : Nat → Ty) (l : List (Nat × Option Nat)) : Port.State := connects nm ty ⟨node ty, []⟩ l
def bound (nm : Nat → String) (ty : Nat → Ty) (l : List (Nat × Option Nat)) (depth : Nat) (ps : List Nat) : Port.State :=
  Port.resolveAll nm depth (built nm ty l) ps

end Verif.Socket
