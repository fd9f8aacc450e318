import Verif.Spec.Factory
import Verif.Model.FactoryInfo
/-! # Specification vocabulary for the queries of the factory -/
namespace Verif.Factory

/-- The overrides that match a request for `t` at `path`: instance overrides in the order of their calls, then the type override. -/
def applicable (e : Env) (f : Factory) (path : String) (t : Ty) : List Ovr :=
  (if path = "" then [] else (queue f.inst t).filter (fun x => e.isMatch x.path path)) ++ f.typeOvr.filter (fun x => decide (x.orig = some t))

/-- A request for `t` at `path` is passed on through the types `us` and ends with `r`. -/
inductive Visits (e : Env) (f : Factory) (path : String) : Ty → List Ty → Ty → Prop
  | stop {t} : Final e f path t → Visits e f path t [t] t
  | next {t u us r} : Step e f path t u → Visits e f path u us r → Visits e f path t (t :: us) r

/-- The rows of one type: all that match; only the first one has no "x". -/
def rowsOf (e : Env) (f : Factory) (path : String) (t : Ty) : List (Ovr × Bool) :=
  (applicable e f path t).zipIdx.map (fun x => (x.1, decide (x.2 = 0)))

end Verif.Factory
