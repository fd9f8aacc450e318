import Verif.Model.PhaseNames
/-!
# Specification: where a phase is
-/
namespace Verif.PhaseNames

/-- A loop comes to its end with the answer `x`: however many more turns it may make. -/
def Gives {α : Type} (f : Nat → Option α) (x : α) : Prop := ∃ m, ∀ n, m ≤ n → f n = some x

/-- A loop never ends. -/
def Hangs {α : Type} (f : Nat → Option α) : Prop := ∀ n, f n = none

/-- Names joined with dots. -/
def dotted : List String → String
  | [] => ""
  | [x] => x
  | x :: y :: l => x ++ "." ++ dotted (y :: l)

/-- `l` lists the schedules around the phase `a`, the outermost first; `top` is what `get_parent` gives for the outermost
one (for `a` itself if there are none). -/
inductive Within (s : State) (top : Option Nat) : List Nat → Nat → Prop where
  | out : parent s a = top → Within s top [] a
  | on : parent s a = some p → kind s p = .schedule → Within s top l p → Within s top (l ++ [p]) a

/-- The phases around a phase, whatever they are, all the way up. -/
inductive Above (s : State) : Nat → Nat → Prop where
  | here : Above s a a
  | on : parent s a = some p → Above s p b → Above s a b

/-- Histories in which phases are added to schedules and domains only, what is added is an IMP phase or a schedule, and no
schedule is added to itself or to a schedule that is within it. -/
inductive Tidy : List Op → Prop where
  | nil : Tidy []
  | newImp : Tidy ops → t ≠ "" → Tidy (ops ++ [.newImp t])
  | newTop : Tidy ops → t ≠ "" → Tidy (ops ++ [.newTop d t])
  | add : Tidy ops →
      (kind (runS step init ops) self = .schedule ∨ kind (runS step init ops) self = .domain) →
      (kind (runS step init ops) phase = .imp ∨ kind (runS step init ops) phase = .schedule ∧ ¬ Above (runS step init ops) self phase) →
      Tidy (ops ++ [.add self phase w a b])

end Verif.PhaseNames
