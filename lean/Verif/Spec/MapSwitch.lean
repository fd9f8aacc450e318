import Verif.Model.MapSwitch
import Verif.Spec.MapTree
/-! # Specification vocabulary for the switches of maps -/
namespace Verif.MapSwitch
open Verif.MapTree

/-- `x` is `m` or in a map below it. -/
def Within (t : MapTree.State) (x m : Nat) : Prop := x = m ∨ Under (fun y => (t.map y).parent) x m

/-- The operation is a `set_check_on_read` of `x` or of a map that `x` is in at that time. -/
def Hits (s : State) (x : Nat) : Op → Prop
  | .check m _ => Within s.t x m
  | _ => False

/-- None of the operations, when its turn comes, is a `set_check_on_read` of `x` or of a map that `x` is in. -/
def Missed (bp : Nat → Option Nat) (n : Nat) (s : State) (x : Nat) (ops : List Op) : Prop :=
  ∀ before op after s', ops = before ++ op :: after → run bp n s before = some s' → ¬ Hits s' x op

/-- Operations on maps that exist. -/
def Legal (s : State) : Op → Prop
  | .build op => MapTree.Legal s.t op
  | .check m _ => m < s.t.count
  | .auto m _ => m < s.t.count

/-- Every operation, when its turn comes, is on maps that exist. -/
def AllLegal (bp : Nat → Option Nat) (n : Nat) (s : State) (ops : List Op) : Prop :=
  ∀ before op after s', ops = before ++ op :: after → run bp n s before = some s' → Legal s' op

end Verif.MapSwitch
