import Verif.Model.BuildAuto
import Verif.Spec.Traverse
import Verif.Spec.Resource
import Verif.Spec.ConfigAuto
/-! # Settings made during a build phase with registered fields -/
namespace Verif.BuildAuto
open Verif.Resource
open Verif.ConfigAuto (Val Field given)

/-- The settings among the calls, in order. -/
def settings : List (Nat × Act × Option (String → Val)) → List (Call Val)
  | [] => []
  | (c, .set inst f v, _) :: l => ⟨c, inst, f, v, true⟩ :: settings l
  | (_, .super _, _) :: l => settings l

/-- The setting is for component `c` and a registered field (or `recording_detail`) whose name is contained in `x`. -/
def Concerns (e : Env Val) (fields : Nat → List Field) (c : Nat) (x : String) (s : Call Val) : Prop :=
  e.matchScope (instName e s.ctx s.inst) (e.fullName c) = true ∧ ((∃ g ∈ fields c, g.name = s.field) ∨ s.field = "recording_detail") ∧ s.field.toList <:+: x.toList

end Verif.BuildAuto
