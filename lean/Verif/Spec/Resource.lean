import Verif.Model.Resource
/-! # Specification vocabulary for resources and the configuration database -/
namespace Verif.Resource
variable {V : Type}

/-- `r` has maximal precedence in `q` and is the earliest such. -/
def IsHighest (q : List (Rsrc V)) (r : Rsrc V) : Prop :=
  ∃ pre post, q = pre ++ r :: post ∧ (∀ x ∈ pre, x.prec < r.prec) ∧ ∀ x ∈ post, x.prec ≤ r.prec

/-- `w` is `v`, or at least `w == v` in Python. -/
def SameVal (e : Env V) (w v : V) : Prop := w = v ∨ e.eqv w v = true

/-- A call `UVMConfigDb.set(ctx, inst, field, val)`, made in the build phase or not. -/
structure Call (V : Type) where
  ctx : Nat
  inst : String
  field : String
  val : V
  build : Bool := false

/-- State after a history of `UVMConfigDb.set` calls. -/
def setAll (e : Env V) (auditing : Bool) (calls : List (Call V)) : Db V :=
  calls.foldl (fun d c => cfgSet e auditing d c.ctx c.inst c.field c.val c.build) {}

/-- The call sets the field `field` for a pattern that matches `path`. -/
def Call.Matches (e : Env V) (c : Call V) (path field : String) : Prop :=
  c.field = field ∧ e.matchScope (instName e c.ctx c.inst) path = true

/-- Two calls set the same field, from the same context, for the same instance pattern. -/
def Call.SameKey (e : Env V) (c c' : Call V) : Prop :=
  c.ctx = c'.ctx ∧ instName e c.ctx c.inst = instName e c'.ctx c'.inst ∧ c.field = c'.field

/-- The internal lookup strings of the calls do not collide: different fields give different strings. -/
def NoCollision (e : Env V) (calls : List (Call V)) : Prop :=
  ∀ c ∈ calls, ∀ c' ∈ calls, instName e c.ctx c.inst ++ "__M_UVM__" ++ c.field = instName e c'.ctx c'.inst ++ "__M_UVM__" ++ c'.field →
    c.field = c'.field

/-- One setting as the database remembers it: who made it, for which path, its value, and its level in the hierarchy (0: from the root or outside
build). -/
structure Setting (V : Type) where
  ctx : Nat
  path : String
  val : V
  level : Nat

/-- How a call changes the settings of its field: one of a new context and path goes to the front (over Python's `None`), one repeated goes to the end;
a value that compares equal to the old one is not stored. -/
def settle (e : Env V) (l : List (Setting V)) (c : Call V) : List (Setting V) :=
  let path := instName e c.ctx c.inst
  let level := if c.build then depth e c.ctx else 0
  match l.find? (fun s => s.ctx == c.ctx && s.path == path) with
  | none => ⟨c.ctx, path, if e.eqv e.none c.val then e.none else c.val, level⟩ :: l
  | some s => l.filter (fun s => !(s.ctx == c.ctx && s.path == path)) ++ [⟨c.ctx, path, if e.eqv s.val c.val then s.val else c.val, level⟩]

/-- The settings of a field after a history. -/
def settled (e : Env V) (field : String) (calls : List (Call V)) : List (Setting V) :=
  (calls.filter fun c => c.field == field).foldl (settle e) []

end Verif.Resource
