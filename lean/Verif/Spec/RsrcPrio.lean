import Verif.Model.RsrcPrio
/-! # Specification vocabulary for search priorities of resources -/
namespace Verif.RsrcPrio
open Verif.Resource

variable {V : Type}

/-- Resource number `id` is found by a look-up of `name` in `scope`: it has the name, and its scope matches. -/
def Found (e : Env V) (d : Db V) (scope name : String) (id : Nat) : Prop :=
  ∃ r, d.heap[id]? = some r ∧ r.name = name ∧ e.matchScope r.scope scope = true

/-- The precedence of resource number `id`. -/
def precOf (d : Db V) (id : Nat) : Int := ((d.heap[id]?).map (·.prec)).getD 0

end Verif.RsrcPrio
