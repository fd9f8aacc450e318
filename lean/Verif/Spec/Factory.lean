import Verif.Model.Factory
/-! # Specification vocabulary for the factory -/
namespace Verif.Factory

/-- `x` is the first element of `l` satisfying `p`. -/
def FirstWith {α} (p : α → Prop) (l : List α) (x : α) : Prop :=
  ∃ pre post, l = pre ++ x :: post ∧ p x ∧ ∀ y ∈ pre, ¬ p y

/-- The override that applies to a request for `t` at `path`: the first registered instance override whose path pattern matches, otherwise
the type override. -/
def Next (e : Env) (f : Factory) (path : String) (t : Ty) (o : Ovr) : Prop :=
  (path ≠ "" ∧ FirstWith (fun x => e.isMatch x.path path = true) (queue f.inst t) o) ∨
  ((path = "" ∨ ∀ x ∈ queue f.inst t, ¬ e.isMatch x.path path = true) ∧ FirstWith (fun x => x.orig = some t) f.typeOvr o)

/-- One application of an override that changes the type. -/
def Step (e : Env) (f : Factory) (path : String) (t u : Ty) : Prop := ∃ o, Next e f path t o ∧ o.ovrd = u ∧ u ≠ t

/-- Zero or more applications. -/
inductive Steps (e : Env) (f : Factory) (path : String) : Ty → Ty → Prop
  | refl (t) : Steps e f path t t
  | head {t u v} : Step e f path t u → Steps e f path u v → Steps e f path t v

/-- `t` lies on a cycle of overrides. -/
def OnCycle (e : Env) (f : Factory) (path : String) (t : Ty) : Prop := ∃ u, Step e f path t u ∧ Steps e f path u t

/-- No override changes `t`. -/
def Final (e : Env) (f : Factory) (path : String) (t : Ty) : Prop := ∀ u, ¬ Step e f path t u

/-- Different types have different names (names that are empty or "<unknown>" do not count). -/
def UniqueNames (e : Env) : Prop := ∀ a b, usable (e.name a) = true → e.name a = e.name b → a = b

/-- Factories produced by calls in which overrides by name are only set for original names known to the factory. -/
inductive Reachable (e : Env) : Factory → Prop
  | init : Reachable e {}
  | step {f} (fuel : Nat) (op : Op) : Reachable e f →
      (∀ on vn r, op = .typeByName on vn r → (f.typeNames on).isSome) → Reachable e (step e fuel f op)

/-- The number of overrides registered. -/
def size (f : Factory) : Nat := f.typeOvr.length + (f.inst.map (·.2.length)).sum

/-- What the type overrides should be after calls of `set_type_override_by_type` (C21). -/
def specTypeOvr : List (Ty × Ty × Bool) → (Ty → Option Ty)
  | [] => fun _ => none
  | (o, v, replace) :: earlier => fun t =>
    let m := specTypeOvr earlier
    if t = o then (if (m o).isSome ∧ replace = false then m o else some v) else m t

end Verif.Factory
