import Verif.Model.Resource
import Verif.Model.Text
/-!
# Model of configuration by registered fields

src/uvm/base/uvm_component.py 1154-1246 (`apply_config_settings`), src/uvm/base/uvm_object.py 899-1030 (`set_int_local`, `set_string_local`,
`set_object_local`), src/uvm/macros/uvm_object_defines.py 199-262 (their field automation), src/uvm/base/uvm_resource.py 1432-1466 (`lookup_scope`).

The fields of the component are a list: classes derived from classes with fields are in `Fields`.  What the automation of a sub-object does is left out: `visits`
records the fields whose object it is called for.  Reports are left out.
-/
namespace Verif.ConfigAuto
open Verif.Resource (Rsrc Db Env)

abbrev Str := Text.Str

/-- Values; `wrap o clone` is a `UVMObjectWrapper`; `copy o` is a clone of object `o`; `other` any value of a type that is not supported. -/
inductive Val where
  | none | int (n : Int) | str (s : String) | obj (o : Nat) | copy (o : Nat) | wrap (o : Nat) (clone : Bool) | other (n : Nat)
deriving DecidableEq, Repr

/-- A registered field: its name and whether it has the flag `UVM_READONLY`. -/
structure Field where
  name : String
  readOnly : Bool := false
deriving DecidableEq, Repr

/-- 199-262: `uvm_is_match(str__, T_cont.scope.get())`; the scope of the component's own fields is empty. -/
def matched (name field : String) : Bool := Text.isMatch name.toList field.toList == some true

def put (a : String → Val) (f : String) (v : Val) : String → Val := fun x => if x = f then v else a x

/-- 199-217 (`UVM_SETINT`), 218-233 (`UVM_SETSTR`). -/
def setPlain (name : String) (v : Val) : List Field → (String → Val) → (String → Val)
  | [], a => a
  | f :: fs, a => setPlain name v fs (if matched name f.name && !f.readOnly then put a f.name v else a)

/-- 250-257: `str__` has a character `.` or `*`. -/
def pathLike (name : String) : Bool := name.toList.any (fun c => c == '.' || c == '*')

/-- What a component has after a call; `raised`: an exception ended it. -/
structure State where
  attrs : String → Val
  visits : List String := []
  raised : Bool := false

/-- 236-260 for one field (`UVM_SETOBJ`). -/
def setObjField (name : String) (v : Val) (f : Field) (s : State) : State :=
  if matched name f.name then (if f.readOnly then s else { s with attrs := put s.attrs f.name v })
  else if !f.readOnly && pathLike name then
    match s.attrs f.name with
    | .none => s
    | .obj _ | .copy _ => { s with visits := s.visits ++ [f.name] }
    | _ => { s with raised := true }
  else s

/-- 234-260: the loop; an exception ends it. -/
def setObj (name : String) (v : Val) : List Field → State → State
  | [], s => s
  | f :: fs, s => if (setObjField name v f s).raised then setObjField name v f s else setObj name v fs (setObjField name v f s)

/-- uvm_component.py 1217-1220: `while j < len(name)`; `j` is not set back between resources. -/
def scan (name : List Char) (j : Nat) : Nat := j + ((name.drop j).takeWhile (fun c => !(c == '[' || c == '.'))).length

/-- 1224-1227. -/
def searchName (name : List Char) (j : Nat) : List Char := if j < name.length then name.take j else name

/-- 1235-1245: the call for the type of the value. -/
def assign (fields : List Field) (name : String) (v : Val) (s : State) : State :=
  match v with
  | .int n => { s with attrs := setPlain name (.int n) fields s.attrs }
  | .str t => { s with attrs := setPlain name (.str t) fields s.attrs }
  | .obj o => setObj name (.obj o) fields s
  | .copy o => setObj name (.copy o) fields s
  | .wrap o clone => setObj name (if clone then .copy o else .obj o) fields s
  | .none => s
  | .other _ => s

/-- 1229-1230. -/
def listed (fields : List Field) (n : List Char) : Bool := fields.any (fun f => f.name.toList == n) || n == "recording_detail".toList

/-- 1212-1245: the loop over the settings; `j` is the index left by the one before. -/
def loop (fields : List Field) : List (Rsrc Val) → Nat → State → State
  | [], _, s => s
  | r :: rs, j, s =>
    let j := scan r.name.toList j
    if listed fields (searchName r.name.toList j) then
      let s := assign fields r.name r.val s
      if s.raised then s else loop fields rs j s
    else loop fields rs j s

/-- uvm_resource.py 1432-1466; `keys`: the names of the table in the order of their first use. -/
def lookupScope (e : Env Val) (d : Db Val) (keys : List String) (scope : String) : List (Rsrc Val) :=
  keys.reverse.flatMap fun n => ((d.rtab n).filterMap (d.heap[·]?)).filter fun r => e.matchScope r.scope scope

/-- 1154-1246: `apply_config_settings`. -/
def apply (fields : List Field) (rq : List (Rsrc Val)) (a : String → Val) : State :=
  if fields = [] then ⟨a, [], false⟩ else loop fields (Resource.sortByPrecedence rq) 0 ⟨a, [], false⟩

end Verif.ConfigAuto
