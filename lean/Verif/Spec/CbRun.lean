import Verif.Spec.Callback
import Verif.Model.CbRun
/-! # Callbacks that add callbacks and change modes while they run -/
namespace Verif.CbRun
open Verif.Callback

/-- The call does not put a callback before those of object `o`, and does not raise: an addition to another object, an addition at the end, a mode change. -/
def appends (o : Nat) : Op → Bool
  | .addInst o' _ append => o' != o || append
  | .mode _ _ => true
  | _ => false

/-- The call changes no mode. -/
def keepsModes : Op → Bool
  | .mode _ _ => false
  | _ => true

/-- The callback an operation adds to object `o`. -/
def adds (o : Nat) : Op → Option Nat
  | .addInst o' c _ => if o' = o then some c else none
  | _ => none

/-- The object has callbacks of its own: one was added to it. -/
def HasOwn (h : List Op) (o : Nat) : Prop := h.filterMap (instAdd o) ≠ []
instance (h : List Op) (o : Nat) : Decidable (HasOwn h o) := by unfold HasOwn; infer_instance

end Verif.CbRun
