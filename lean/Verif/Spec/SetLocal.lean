import Verif.Model.SetLocal
/-
Specification of settings by name.  A path is a list of field names; its text has a dot between the names.
-/

namespace Verif.SetLocal.Spec

open SetLocal (Str Val Field Env)

/-- The text of a path. -/
def dotted : List Str → Str
  | [] => []
  | x :: r => x ++ r.flatMap fun y => '.' :: y

/-- Names of attributes: not empty, and they do not begin with a bracket. -/
def GoodName (x : Str) : Prop := ∃ c r, x = c :: r ∧ c ≠ '[' ∧ c ≠ '(' ∧ c ≠ '{'

/-- All registered names are names of attributes, and no object registers a name twice. -/
structure GoodEnv (E : Env) : Prop where
  names : ∀ o, ∀ f ∈ E.fields o, GoodName f.name
  nodup : ∀ o, ((E.fields o).map (·.name)).Nodup

/-- `x` is a field of `o` that may be set. -/
def settable (E : Env) (o : Nat) (x : Str) : Prop := ∃ f ∈ E.fields o, f.name = x ∧ f.readOnly = false

/-- `p` is reached from `o`, which itself is at `pre`, by the path `π` of fields that may be set and whose own paths the pattern
does not match. -/
inductive Reach (E : Env) (pat : Str) (a : Nat → Str → Val) : List Str → Nat → List Str → Nat → Prop
  | here (pre o) : Reach E pat a pre o [] o
  | down (pre o) (x : Str) (p : Nat) (π : List Str) (q : Nat) : settable E o x → E.isMatch pat (dotted (pre ++ [x])) = false →
      a o x = .obj p → Reach E pat a (pre ++ [x]) p π q → Reach E pat a pre o (x :: π) q

/-- The pattern names the field `x` of the object `q`: `q` is reached by a path, and the path with `x` matches. -/
def Named (E : Env) (pat : Str) (a : Nat → Str → Val) (pre : List Str) (o q : Nat) (x : Str) : Prop :=
  ∃ π, Reach E pat a pre o π q ∧ settable E q x ∧ E.isMatch pat (dotted (pre ++ π ++ [x])) = true

/-- Every object is reached by one path at most: the objects below `o` form a tree. -/
def TreeLike (E : Env) (pat : Str) (a : Nat → Str → Val) (pre : List Str) (o : Nat) : Prop :=
  ∀ π π' q, Reach E pat a pre o π q → Reach E pat a pre o π' q → π = π'

end Verif.SetLocal.Spec
