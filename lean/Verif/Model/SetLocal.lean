import Verif.Model.ScopeStack
/-
Model of setting registered fields by name, through objects of objects:
src/uvm/base/uvm_object.py 899-1031 (`set_int_local`, `set_string_local`, `set_object_local`), src/uvm/macros/uvm_object_defines.py
127-147, 199-262, 312-314 (their part of the field automation), src/uvm/base/uvm_misc.py 226-263, 319-341 (the status container,
which all objects share, and its check for cycles), src/uvm/base/uvm_scope_stack.py.

Simplifications: an object is a number; the fields of an object are one list (a base class with fields runs the same code on its
part first and leaves the container as it found it); `uvm_is_match` is a parameter; reports, `print_matches` and `clone` are left
out (`v` is the clone if one is made).
-/

namespace Verif.SetLocal

abbrev Str := List Char

/-- The value of an attribute. -/
inductive Val where
  | none | int (n : Int) | str (s : Str) | obj (o : Nat)
deriving DecidableEq, Repr

structure Field where
  name : Str
  readOnly : Bool
deriving DecidableEq, Repr

/-- What stays the same: `uvm_is_match` and the registered fields of every object. -/
structure Env where
  isMatch : Str → Str → Bool
  fields : Nat → List Field

/-- What a call may end with: `AttributeError` because an attribute of a built-in type has no automation (259), or the bound on
the depth of the model. -/
inductive Exc where
  | attribute | fuel
deriving DecidableEq, Repr

/-- The attributes of the objects; the shared container: the scope, `m_uvm_cycle_scopes`, `status`; the exception that ended the
call. -/
structure St where
  attr : Nat → Str → Val
  scope : ScopeStack.State
  busy : List Nat
  status : Bool
  exc : Option Exc

def put (a : Nat → Str → Val) (o : Nat) (x : Str) (v : Val) : Nat → Str → Val := fun p y => if p = o ∧ y = x then v else a p y

/-- `T_cont.scope.get()`, where the argument is a text. -/
def text (s : ScopeStack.State) : Str :=
  match ScopeStack.get s with
  | .str t => t
  | _ => []

/-- uvm_object_defines.py 199-217: `UVM_SETINT`, the loop. -/
def setIntFields (E : Env) (pat : Str) (v : Val) (o : Nat) : List Field → St → St
  | [], s => s
  | f :: fs, s =>
    let s := { s with scope := ScopeStack.step s.scope (.setArg f.name) }
    let s := if E.isMatch pat (text s.scope) then
        if f.readOnly then s else { s with attr := put s.attr o f.name v, status := true }
      else s
    setIntFields E pat v o fs { s with scope := ScopeStack.step s.scope (.unsetArg f.name) }

/-- 218-233: `UVM_SETSTR`; the argument of the scope is not unset. -/
def setStrFields (E : Env) (pat : Str) (v : Val) (o : Nat) : List Field → St → St
  | [], s => s
  | f :: fs, s =>
    let s := { s with scope := ScopeStack.step s.scope (.setArg f.name) }
    setStrFields E pat v o fs (if E.isMatch pat (text s.scope) then
        if f.readOnly then s else { s with attr := put s.attr o f.name v, status := true }
      else s)

/-- 250-254: the pattern has a `.` or a `*`. -/
def pathLike (pat : Str) : Bool := pat.any fun c => c == '.' || c == '*'

/-- 234-260 for one field of `UVM_SETOBJ`; `rec` is the automation of another object. -/
def setObjField (E : Env) (pat : Str) (v : Val) (rec : Nat → St → St) (o : Nat) (f : Field) (s : St) : St :=
  let arg := s.attr o f.name
  let s := { s with scope := ScopeStack.step s.scope (.setArg f.name) }
  if E.isMatch pat (text s.scope) then
    if f.readOnly then s else { s with attr := put s.attr o f.name v, status := true }
  else if arg ≠ .none ∧ f.readOnly = false ∧ pathLike pat = true then
    let s := { s with scope := ScopeStack.step s.scope (.down f.name) }
    match arg with
    | .obj p =>
      let s := rec p s
      if s.exc.isSome then s else { s with scope := ScopeStack.step s.scope (.up ['.']) }
    | _ => { s with exc := some .attribute }
  else s

/-- The loop of 234-260; an exception ends it. -/
def setObjFields (E : Env) (pat : Str) (v : Val) (rec : Nat → St → St) (o : Nat) : List Field → St → St
  | [], s => s
  | f :: fs, s =>
    let s := setObjField E pat v rec o f s
    if s.exc.isSome then s else setObjFields E pat v rec o fs s

/-- 142-146, 234-260, 312-314 and uvm_misc.py 319-341: `_m_uvm_field_automation(None, UVM_SETOBJ, pat)`.  The check for cycles
compares the whole list with the object (322, 326), which is never equal, so an object in the list ends the call; the last entry
is taken off at the end. -/
def autoObj (E : Env) (pat : Str) (v : Val) : Nat → Nat → St → St
  | 0, _, s => { s with exc := some .fuel }
  | n + 1, o, s =>
    if o ∈ s.busy then s
    else
      let s := setObjFields E pat v (autoObj E pat v n) o (E.fields o) { s with busy := s.busy ++ [o] }
      if s.exc.isSome then s else { s with busy := s.busy.dropLast }

/-- 142-146, 312-314 around a loop that calls no other object. -/
def autoPlain (loop : List Field → St → St) (E : Env) (o : Nat) (s : St) : St :=
  if o ∈ s.busy then s
  else
    let s := loop (E.fields o) { s with busy := s.busy ++ [o] }
    { s with busy := s.busy.dropLast }

inductive Call where
  | int (o : Nat) (pat : Str) (n : Int)
  | str (o : Nat) (pat : Str) (t : Str)
  | obj (o : Nat) (pat : Str) (v : Option Nat)
deriving DecidableEq, Repr

/-- The value given by `set_object_local`. -/
def objVal : Option Nat → Val
  | none => .none
  | some p => .obj p

/-- uvm_object.py 899-1031: `set_int_local`, `set_string_local`, `set_object_local`: the list of the check for cycles is cleared,
the scope is not. -/
def call (E : Env) (fuel : Nat) (s : St) (c : Call) : St :=
  let s := { s with busy := [], status := false, exc := none }
  match c with
  | .int o pat n => autoPlain (setIntFields E pat (.int n) o) E o s
  | .str o pat t => autoPlain (setStrFields E pat (.str t) o) E o s
  | .obj o pat v => autoObj E pat (objVal v) fuel o s

def calls (E : Env) (fuel : Nat) (s : St) (cs : List Call) : St := cs.foldl (call E fuel) s

/-- A container never used before. -/
def fresh (a : Nat → Str → Val) : St := ⟨a, ScopeStack.init, [], false, none⟩

end Verif.SetLocal
