import Verif.Model.RegParSet
import Verif.Spec.RegPar
/-! # Specification vocabulary for values set while accesses are under way -/
namespace Verif.RegPar
open Verif.RegAccess Verif.RegConc

/-- The operations asked for on register `i`. -/
def asked2 {n : Nat} (i : Fin n) (evs : List (Ev2 n)) : List RegAccess.Op :=
  asked i (evs.filterMap fun | .ev e => some e | _ => none)

/-- The operation and what it asked of the bus belong together. -/
def Fit : RegAccess.Op → Req → Prop
  | .write _, .write _ | .update, .write _ | .read, .read | .mirror _, .read => True
  | _, _ => False

end Verif.RegPar
