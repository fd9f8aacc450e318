/-
Model of the access policies of register fields by name (src/uvm/reg/uvm_reg_field.py 39-101, 104-178, 297-447) and of the text
of report actions (src/uvm/base/uvm_report_handler.py 327-356).

Simplifications: names are lists of characters and `str.upper` is `Char.toUpper` (which is Python's for ASCII names only).  Of a
field only its access policy and its random variable are kept; sizes are positive where it matters (139-142 changes 0 to 1, with
an error report).  Reports are not modelled: the texts are in `Model/ReportText`.
-/

namespace Verif.Policy

abbrev Str := List Char

/-- `str.upper`. -/
def upper (s : Str) : Str := s.map Char.toUpper

/-- uvm_reg_field.py 348-372, in order. -/
def policies : List Str :=
  ["RO", "RW", "RC", "RS", "WRC", "WRS", "WC", "WS", "WSRC", "WCRS", "W1C", "W1S", "W1T", "W0C", "W0S", "W0T",
   "W1SRC", "W1CRS", "W0SRC", "W0CRS", "WO", "WOC", "WOS", "W1", "WO1"].map String.toList

/-- uvm_reg_field.py 44-46. -/
def knownAccesses : List Str :=
  ["RO", "RW", "RC", "RS", "WC", "WS", "W1C", "W1S", "W1T", "W0C", "W0S", "W0T", "WRC", "WRS", "W1SRC", "W1CRS", "W0SRC",
   "W0CRS", "WSRC", "WCRS", "WO", "WOC", "WOS", "W1", "WO1"].map String.toList

/-- uvm_reg_field.py 39-42. -/
def noRandSet : List Str :=
  ["RO", "RC", "RS", "WC", "WS", "W1C", "W1S", "W1T", "W0C", "W0S", "W0T", "W1SRC", "W1CRS", "W0SRC", "W0CRS", "WSRC", "WCRS",
   "WOC", "WOS"].map String.toList

/-- What is kept of a field: `m_access` (82), whether `rand('value', ...)` was called and with which size (144), and the
attribute `is_rand` that `configure` may set (176), which nothing reads. -/
structure Field where
  access : Str
  randSize : Option Nat
  isRandAttr : Option Bool
deriving DecidableEq, Repr

/-- The class attributes `m_policy_names` and `m_predefined` (68-69) and the fields made. -/
structure State where
  names : List Str
  predefined : Bool
  fields : Nat → Option Field

def init : State := ⟨[], false, fun _ => none⟩

/-- uvm_reg_field.py 333-338: `define_access` once the policies are predefined. -/
def define1 (s : State) (name : Str) : State × Bool :=
  if upper name ∈ s.names then (s, false) else ({ s with names := upper name :: s.names }, true)

/-- uvm_reg_field.py 341-373: the flag is set first, so the calls of `define_access` do not come back here. -/
def predefine (s : State) : State :=
  if s.predefined then s else policies.foldl (fun s n => (define1 s n).1) { s with predefined := true }

/-- uvm_reg_field.py 306-338. -/
def define (s : State) (name : Str) : State × Bool :=
  if s.predefined then define1 s name else define1 (predefine s) name

def setField (s : State) (f : Nat) (x : Field) : State :=
  { s with fields := fun g => if g = f then some x else s.fields g }

/-- uvm_reg_field.py 71-101. -/
def newField (s : State) (f : Nat) : State :=
  let s := setField s f ⟨[], none, none⟩
  if s.predefined then s else predefine s

/-- uvm_reg_field.py 104-178: the access policy and the random variable; `is_rand` is not used. -/
def configure (s : State) (f : Nat) (size : Nat) (access : Str) (_isRand : Bool) : State :=
  match s.fields f with
  | none => s
  | some x =>
    setField s f
      { access := if upper access ∈ s.names then upper access else "RW".toList
        randSize := some (if size = 0 then 1 else size)
        isRandAttr := if access ∈ noRandSet then some false else x.isRandAttr }

/-- uvm_reg_field.py 297-303: the answer is the policy before. -/
def setAccess (s : State) (f : Nat) (mode : Str) : State × Option Str :=
  match s.fields f with
  | none => (s, none)
  | some x => if upper mode ∈ s.names then (setField s f { x with access := upper mode }, some x.access) else (s, some x.access)

inductive Op where
  | define (name : Str)
  | new (f : Nat)
  | configure (f : Nat) (size : Nat) (access : Str) (isRand : Bool)
  | setAccess (f : Nat) (mode : Str)

def step (s : State) : Op → State
  | .define n => (define s n).1
  | .new f => newField s f
  | .configure f z a r => configure s f z a r
  | .setAccess f m => (setAccess s f m).1

def run (ops : List Op) : State := ops.foldl step init

/-- uvm_reg_field.py 375-430: `get_access` through a map, by the rights of the register there (`none`: the back door).  In the
branch for write-only rights the variable is overwritten before it is looked at (418-420). -/
def getAccess (rights : Option Str) (access : Str) : Str :=
  match rights with
  | none => access
  | some r =>
    if r = "RW".toList then access
    else if r = "RO".toList then
      if access ∈ ["RW", "RO", "WC", "WS", "W1C", "W1S", "W1T", "W0C", "W0S", "W0T", "W1"].map String.toList then "RO".toList
      else if access ∈ ["RC", "WRC", "W1SRC", "W0SRC", "WSRC"].map String.toList then "RC".toList
      else if access ∈ ["RS", "WRS", "W1CRS", "W0CRS", "WCRS"].map String.toList then "RS".toList
      else if access ∈ ["WO", "WOC", "WOS", "WO1"].map String.toList then "NOACCESS".toList
      else access
    else if r = "WO".toList then
      let a := "NOACCESS".toList
      if a = "RW".toList ∨ a = "WO".toList then "WO".toList else a
    else "NOACCESS".toList

/-- uvm_reg_field.py 432-447. -/
def isKnown (rights : Option Str) (access : Str) : Nat := if getAccess rights access ∈ knownAccesses then 1 else 0

/-- The values `randomize()` can give a field, uvm_reg_field.py 144 (`rand('value', range(1 << size))`); `none`: it leaves the
field as it is. -/
def randomValues (x : Field) : Option (List Nat) := x.randSize.map fun n => List.range (1 <<< n)

/-- uvm_report_handler.py 327-356 (the values of the actions: uvm_object_globals.py 244-251). -/
def formatAction (action : Nat) : Str :=
  let s : Str := []
  if action = 0 then "UVM_NO_ACTION".toList
  else
    let s := if action &&& 1 ≠ 0 then s ++ "DISPLAY ".toList else s
    let s := if action &&& 2 ≠ 0 then s ++ "LOG ".toList else s
    let s := if action &&& 64 ≠ 0 then s ++ "RM_RECORD ".toList else s
    let s := if action &&& 4 ≠ 0 then s ++ "COUNT ".toList else s
    let s := if action &&& 16 ≠ 0 then s ++ "CALL_HOOK ".toList else s
    let s := if action &&& 8 ≠ 0 then s ++ "EXIT ".toList else s
    let s := if action &&& 32 ≠ 0 then s ++ "STOP ".toList else s
    s

end Verif.Policy
