import Verif.Model.BuildFactory
import Verif.Spec.Traverse
import Verif.Spec.Factory
/-! # Which override applies, told by the history of calls -/
namespace Verif.BuildFactory
open Verif.Factory

/-- The calls of a log. -/
def ops (log : List (Nat × Op × Option Res)) : List Op := log.map (·.2.1)

/-- The type of the first instance override of `t` whose pattern matches the path. -/
def firstInst (e : Env) (path : String) (t : Ty) : List Op → Option Ty
  | [] => none
  | .inst o v p :: ops => if o = t ∧ e.isMatch p path = true then some v else firstInst e path t ops
  | _ :: ops => firstInst e path t ops

/-- How a call changes the type override of `t`. -/
def typeCall (t : Ty) (cur : Option Ty) : Op → Option Ty
  | .typeByType o v r => if o = t then (if cur.isSome ∧ r = .false_ then cur else some v) else cur
  | _ => cur

/-- The type override of `t`: the last one set, not counting those that were not to replace another. -/
def typeOverride (t : Ty) (ops : List Op) : Option Ty := ops.foldl (typeCall t) none

/-- What replaces `t` at the path: instance overrides go before type overrides. -/
def override (e : Env) (path : String) (ops : List Op) (t : Ty) : Option Ty :=
  if path = "" then typeOverride t ops else (firstInst e path t ops).or (typeOverride t ops)

/-- From type `t` to type `u` by overrides, `u` is not replaced. -/
inductive Leads (e : Env) (path : String) (ops : List Op) : Ty → Ty → Prop
  | stop {t} : override e path ops t = none ∨ override e path ops t = some t → Leads e path ops t t
  | next {t u v} : override e path ops t = some u → u ≠ t → Leads e path ops u v → Leads e path ops t v

/-- No overrides by name. -/
def ByType (ops : List Op) : Prop := ∀ on vn r, Op.typeByName on vn r ∉ ops

end Verif.BuildFactory
