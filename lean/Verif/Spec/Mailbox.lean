import Verif.Model.Mailbox
/-! # Reading a mailbox run from its observable effects -/
namespace Verif.Mailbox
variable {α : Type}

/-- The item accepted by a completed `put` or successful `try_put`. -/
def accepted : Out α → Option α
  | .putDone _ x => some x
  | .tryPut x true => some x
  | _ => none

/-- The item handed out by a completed `get` or successful `try_get`. -/
def delivered : Out α → Option α
  | .gotten _ x => some x
  | .tryGet (some x) => some x
  | _ => none

/-- A coroutine suspended in `get` (resp. `put`) for which no wake-up is pending. -/
def StuckGet (s : State α) (t : Nat) : Prop := s.tasks t = .getWait
def StuckPut (s : State α) (t : Nat) : Prop := ∃ x, s.tasks t = .putWait x
def StuckPeek (s : State α) (t : Nat) : Prop := s.tasks t = .peekWait

/-- No coroutine is runnable. -/
def Quiescent (s : State α) : Prop :=
  ∀ t, (∀ x, s.tasks t ≠ .putWoken x) ∧ s.tasks t ≠ .getWoken ∧ s.tasks t ≠ .peekWoken

end Verif.Mailbox
