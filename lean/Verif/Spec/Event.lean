import Verif.Model.Event
/-!
# Specification vocabulary for events

Everything is read off the log of a history: the calls paired with their observable effects.
-/
namespace Verif.Event
variable {α : Type}

/-- The calls of `h` made from state `s`, each with its effect. -/
def log (pre : Nat → Option Int) (s : State α) (h : List (Op α)) : List (Op α × Out α) := h.zip (run (step pre) s h).2

/-- Is the event on after the log, `b` before it?  A trigger that took place turns it on, `reset` turns it off. -/
def onAfter (b : Bool) : List (Op α × Out α) → Bool
  | [] => b
  | (.trigger .., .triggered) :: l => onAfter true l
  | (.reset _, _) :: l => onAfter false l
  | _ :: l => onAfter b l

/-- The data of the last trigger that took place. -/
def lastData (x : Option α) : List (Op α × Out α) → Option α
  | [] => x
  | (.trigger d _, .triggered) :: l => lastData d l
  | _ :: l => lastData x l

/-- The time of the last trigger that took place, 0 after a reset. -/
def lastTime (x : Nat) : List (Op α × Out α) → Nat
  | [] => x
  | (.trigger _ n, .triggered) :: l => lastTime n l
  | (.reset _, _) :: l => lastTime 0 l
  | _ :: l => lastTime x l

/-- Is a coroutine inside `wait_trigger`/`wait_ptrigger` about to return? Only such a return ends a pending trigger,
so the effect of interest is a `resume` of a coroutine that called one of the two and returned. `ws` lists the
coroutines inside such a call. `pending`: a trigger took place that no `wait_trigger`/`wait_ptrigger` return and no
reset has used up. -/
def pending (ws : List Nat) (b : Bool) : List (Op α × Out α) → Bool
  | [] => b
  | (.trigger .., .triggered) :: l => pending ws true l
  | (.reset _, _) :: l => pending ws false l
  | (.waitTrigger t _, .suspended) :: l => pending (t :: ws) b l
  | (.waitPtrigger t _, .suspended) :: l => pending (t :: ws) b l
  | (.kill t, _) :: l => pending (ws.filter (· ≠ t)) b l
  | (.resume t, .returned ..) :: l => if t ∈ ws then pending (ws.filter (· ≠ t)) false l else pending ws b l
  | _ :: l => pending ws b l

/-- The call does not resume or kill coroutine `t`. -/
def leaves (t : Nat) : Op α → Bool
  | .resume u => u != t
  | .kill u => u != t
  | _ => true

/-- The call is neither a trigger nor a reset that wakes, and does not kill `t`. -/
def quiet (t : Nat) : Op α → Bool
  | .trigger .. => false
  | .reset w => !w
  | .kill u => u != t
  | _ => true

def isReset : Op α → Bool
  | .reset _ => true
  | _ => false

/-- Does the effect say that a wait call of `t` returned? -/
def returns (t : Nat) : Out α → Bool
  | .returned u _ => u == t
  | _ => false

/-- The coroutine is suspended in `wait_trigger`/`wait_ptrigger`. -/
def suspendedIn (s : State α) (t : Nat) : Bool :=
  match s.tasks t with
  | .trigWait .. => true
  | _ => false

/-- A history of triggers, waking resets, callback registrations and waits for triggers by coroutines of `L`, where
`wait_trigger` is only called while no trigger is pending. -/
def calm (pre : Nat → Option Int) (L : List Nat) (s : State α) : List (Op α) → Prop
  | [] => True
  | o :: h => calm pre L (step pre s o).1 h ∧
    match o with
    | .waitTrigger t _ => t ∈ L ∧ s.fired = false
    | .waitPtrigger t _ => t ∈ L
    | .reset w => w = true
    | .trigger .. | .addCb .. | .delCb _ | .resume _ => True
    | _ => False

end Verif.Event
