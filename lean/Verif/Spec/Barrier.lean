import Verif.Model.Barrier
/-!
# Specification vocabulary for barriers
-/
namespace Verif.Barrier

/-- The process is inside `wait_for`. -/
def Waiting (s : State) (t : Nat) : Prop := s.ev.tasks t ≠ .idle

/-- The call neither resets the barrier nor changes its threshold, and does not kill process `t`. -/
def ordinary (t : Nat) : Op → Bool
  | .reset _ | .setThreshold _ => false
  | .kill u => u != t
  | _ => true

/-- Processes arrive and are scheduled, the automatic reset is switched on or off, nothing else happens. -/
def arrival : Op → Bool
  | .waitFor _ | .resume _ | .setAutoReset _ => true
  | _ => false

/-- Processes arrive and are scheduled, nothing else happens. -/
def plain : Op → Bool
  | .waitFor _ | .resume _ => true
  | _ => false

/-- The call does not concern the settings of the barrier: no `reset`, `set_threshold`, `set_auto_reset`. -/
def keepsOpen : Op → Bool
  | .reset _ | .setThreshold _ | .setAutoReset _ => false
  | _ => true

/-- The call does not give up on waiting processes: no `cancel`, no `reset` without wake-up. -/
def patient : Op → Bool
  | .cancel | .reset false => false
  | _ => true

/-- The call does not resume or kill process `t`. -/
def leaves (t : Nat) : Op → Bool
  | .resume u | .kill u => u != t
  | _ => true

/-- The number of processes that called `wait_for`, from the effects of a history. -/
def arrived : List (Op × Out) → Nat
  | [] => 0
  | (.waitFor _, .passed _) :: l | (.waitFor _, .blocked _) :: l => arrived l + 1
  | _ :: l => arrived l

/-- The calls of `h` made from state `s`, each with its effect. -/
def log (s : State) (h : List Op) : List (Op × Out) := h.zip (run step s h).2

end Verif.Barrier
