import Verif.Spec.Port
import Verif.Model.ImpDecl
/-! # What the owner of a declared analysis implementation expects -/
namespace Verif.ImpDecl
open Verif.Port
variable {T : Type}

/-- What was received through implementation `i`'s method: the values, in the order of arrival. -/
def received (log : List (Got T)) (c : Nat) (m : String) : List T :=
  (log.filter (fun g => g.comp == c && g.method == m)).map (·.value)

/-- The component behind implementation `i` defines the method it declared. -/
def Answers (w : World T) (i : Nat) : Prop := w.has (w.decl i).owner ("write" ++ (w.decl i).sfx) = true

/-- Its method never raises. -/
def Calm (w : World T) (i : Nat) : Prop :=
  ∀ log t, w.raises log (w.decl i).owner ("write" ++ (w.decl i).sfx) t = false

/-- The call that a working implementation makes. -/
def call (w : World T) (t : T) (i : Nat) : Got T := ⟨(w.decl i).owner, "write" ++ (w.decl i).sfx, t⟩

end Verif.ImpDecl
