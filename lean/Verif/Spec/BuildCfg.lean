import Verif.Model.BuildCfg
import Verif.Spec.Traverse
import Verif.Spec.Resource
/-! # Settings made during a build phase -/
namespace Verif.BuildCfg
open Verif.Resource
variable {V : Type}

/-- The settings among the calls, in order. -/
def settings : List (Nat × Act V × Option V) → List (Call V)
  | [] => []
  | (c, .set inst f v, _) :: l => ⟨c, inst, f, v, true⟩ :: settings l
  | (_, .get _ _, _) :: l => settings l

end Verif.BuildCfg
