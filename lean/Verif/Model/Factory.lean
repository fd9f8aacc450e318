import Verif.Util.PyFlag
/-!
# Model of `UVMDefaultFactory` (src/uvm/base/uvm_factory.py) and of the registries (src/uvm/base/uvm_registry.py)

A type is the identity of its proxy object (`Ty`).  The environment gives each proxy its type name and the matching
predicate `uvm_is_match` (modelled in `Verif.Model.Glob`); nothing is assumed about either.  `set_inst_override_by_name` is commented
out in the code (411-468), so `m_inst_override_name_queues` and `m_wildcard_inst_overrides` stay empty and are left out, as are the
counters `used`/`selected`, printing and the warnings.
-/
namespace Verif.Factory

abbrev Ty := Nat

structure Env where
  name : Ty → String
  isMatch : String → String → Bool

/-- 59-76: `UVMFactoryOverride`. -/
structure Ovr where
  path : String
  orig : Option Ty
  origName : String
  ovrd : Ty
deriving DecidableEq, Repr

/-- 62-74: the constructor: with an original type its name is taken. -/
def mkOvr (e : Env) (path : String) (origName : String) (orig : Option Ty) (ovrd : Ty) : Ovr :=
  { path, orig, ovrd, origName := match orig with
      | some t => e.name t
      | none => origName }

/-- 147-155.  `debugPass` is whether `m_debug_pass` is still the object `False` of line 145 (it is the integer 0 after the first
`m_debug_create`). -/
structure Factory where
  types : List Ty := []
  typeNames : String → Option Ty := fun _ => none
  typeOvr : List Ovr := []
  inst : List (Ty × List Ovr) := []
  debugPass : Bool := true

/-- `get_type_name() != "" and get_type_name() != "<unknown>"`. -/
def usable (s : String) : Bool := s != "" && s != "<unknown>"

def setName (f : String → Option Ty) (n : String) (t : Ty) : String → Option Ty := fun m => if m = n then some t else f m

/-- 158-201: `register`. -/
def register (e : Env) (f : Factory) (t : Ty) : Factory :=
  let f := if usable (e.name t) then
      if (f.typeNames (e.name t)).isSome then f else { f with typeNames := setName f.typeNames (e.name t) t }
    else f
  if f.types.contains t then f else { f with types := t :: f.types }

/-- 229-233, 391-395: `if not self.m_types.exists(t): self.register(t)`. -/
def ensure (e : Env) (f : Factory) (t : Ty) : Factory := if f.types.contains t then f else register e f t

/-- 239-242 and 988-993: a type override applies to a type. -/
def typeApplies (e : Env) (t : Ty) (o : Ovr) : Bool :=
  o.orig == some t || (o.origName != "<unknown>" && o.origName != "" && o.origName == e.name t)

/-- 203-271: `set_type_override_by_type`. -/
def setTypeByType (e : Env) (f : Factory) (o v : Ty) (replace : PyFlag) : Factory :=
  let f := ensure e (ensure e f o) v
  if f.typeOvr.any (typeApplies e o) then
    if replace = .false_ then f
    else { f with typeOvr := f.typeOvr.map fun x =>
      if typeApplies e o x then { x with orig := some o, origName := e.name o, ovrd := v } else x }
  else { f with typeOvr := f.typeOvr ++ [mkOvr e "*" (e.name o) (some o) v] }

/-- 274-336: `set_type_override_by_name`. -/
def setTypeByName (e : Env) (f : Factory) (on vn : String) (replace : PyFlag) : Factory :=
  match f.typeNames vn with
  | none => f
  | some v =>
    if on = vn then f
    else if f.typeOvr.any (·.origName == on) then
      if replace.truthy = false then f
      else { f with typeOvr := f.typeOvr.map fun x => if x.origName == on then { x with ovrd := v } else x }
    else { f with typeOvr := f.typeOvr ++ [mkOvr e "*" on (f.typeNames on) v], typeNames := setName f.typeNames on v }

/-- `self.m_inst_override_queues[t]`, empty if absent. -/
def queue (q : List (Ty × List Ovr)) (t : Ty) : List Ovr :=
  match q with
  | [] => []
  | (u, l) :: q => if u = t then l else queue q t

/-- `queues[t].push_back(o)`, creating the queue if needed (400-409). -/
def push (q : List (Ty × List Ovr)) (t : Ty) (o : Ovr) : List (Ty × List Ovr) :=
  match q with
  | [] => [(t, [o])]
  | (u, l) :: q => if u = t then (u, l ++ [o]) :: q else (u, l) :: push q t o

/-- 374-409 with 338-371: `set_inst_override_by_type`. -/
def setInst (e : Env) (f : Factory) (o v : Ty) (path : String) : Factory :=
  let f := ensure e (ensure e f o) v
  if (queue f.inst o).any (fun x => x.path == path && x.orig == some o && x.ovrd == v && x.origName == e.name o) then f
  else { f with inst := push f.inst o (mkOvr e path (e.name o) (some o) v) }

/-- 981-986: an instance override applies to a type at a path. -/
def instApplies (e : Env) (t : Ty) (path : String) (o : Ovr) : Bool :=
  (o.orig == some t || (o.origName != "<unknown>" && o.origName != "" && o.origName == e.name t)) && e.isMatch o.path path

/-- The overrides found by the two loops of `find_override_by_type` (678-709), in order. -/
def candidates (e : Env) (f : Factory) (t : Ty) (path : String) : List Ovr :=
  (if path ≠ "" then (queue f.inst t).filter (instApplies e t path) else []) ++ f.typeOvr.filter (typeApplies e t)

/-- Result of a resolution. `loop`: `OVRDLOOP` was reported. `recursion`: Python's recursion limit was hit. -/
inductive Res where
  | found (t : Ty) (loop : Bool)
  | indexError
  | recursion
  | unknown
deriving DecidableEq, Repr

/-- 653-718 in the debugging pass (`m_debug_pass` = 1): gives `m_override_info` at the end; all candidates are recorded.
`none`: recursion limit. -/
def debugInfo (e : Env) (f : Factory) (path : String) : Nat → Ty → List Ovr → Option (List Ovr)
  | 0, _, _ => none
  | fuel + 1, t, info =>
    if info.any (·.orig == some t) then some info
    else
      match candidates e f t path with
      | [] => some info
      | o :: os => if o.ovrd = t then some (info ++ (o :: os)) else debugInfo e f path fuel o.ovrd (info ++ (o :: os))

/-- 653-718: `find_override_by_type`; `info` is `m_override_info`.  A loop found while `m_debug_pass` is `False` runs
`debug_create_by_type` (672, 877-901), which clears and refills `m_override_info` before line 674 indexes it. -/
def findByType (e : Env) (f : Factory) (path : String) : Nat → Ty → List Ovr → Res
  | 0, _, _ => .recursion
  | fuel + 1, t, info =>
    match info.findIdx? (·.orig == some t) with
    | some i =>
      if f.debugPass then
        match debugInfo e f path (fuel + 1) t [] with
        | none => .recursion
        | some l => if i < l.length then .found t true else .indexError
      else .found t true
    | none =>
      match candidates e f t path with
      | [] => .found t false
      | o :: _ => if o.ovrd = t then .found t false else findByType e f path fuel o.ovrd (info ++ [o])

/-- 516-524. -/
def instPath (parent name : String) : String :=
  if parent = "" then name else if name ≠ "" then parent ++ "." ++ name else parent

/-- 496-514, 555-571: `create_object_by_type` / `create_component_by_type`: the type whose proxy creates the object. -/
def createByType (e : Env) (f : Factory) (fuel : Nat) (t : Ty) (parent name : String) : Res :=
  findByType e f (instPath parent name) fuel t []

/-- 581-651: `find_override_by_name`; `none` is `None`. -/
def findByName (e : Env) (f : Factory) (fuel : Nat) (rn : String) (path : String) : Option Res :=
  let qc := match f.typeNames rn with
    | none => []
    | some t => queue f.inst t
  match (if path ≠ "" then qc.find? (fun o => e.isMatch o.origName rn && e.isMatch o.path path) else none) with
  | some o => some (if e.name o.ovrd = rn then .found o.ovrd false else findByType e f path fuel o.ovrd [o])
  | none =>
    match f.typeOvr.find? (·.origName == rn) with
    | some o => some (findByType e f path fuel o.ovrd [o])
    | none => none

/-- 470-494, 526-553: `create_object_by_name` / `create_component_by_name`. -/
def createByName (e : Env) (f : Factory) (fuel : Nat) (rn parent name : String) : Res :=
  match findByName e f fuel rn (instPath parent name) with
  | some r => r
  | none => match f.typeNames rn with
    | none => .unknown
    | some t => .found t false

/-- Did this resolution run the debugging pass? -/
def Res.looped : Res → Bool
  | .found _ l => l
  | .indexError => true
  | .recursion => false
  | .unknown => false

/-- A user's calls. -/
inductive Op where
  | register (t : Ty)
  | typeByType (o v : Ty) (replace : PyFlag)
  | typeByName (on vn : String) (replace : PyFlag)
  | inst (o v : Ty) (path : String)
  | create (t : Ty) (parent name : String)
  | createByName (n parent name : String)
deriving Repr

def step (e : Env) (fuel : Nat) (f : Factory) : Op → Factory
  | .register t => Factory.register e f t
  | .typeByType o v r => setTypeByType e f o v r
  | .typeByName on vn r => setTypeByName e f on vn r
  | .inst o v p => setInst e f o v p
  | .create t p n => { f with debugPass := f.debugPass && !(createByType e f fuel t p n).looped }
  | .createByName t p n => { f with debugPass := f.debugPass && !(Factory.createByName e f fuel t p n).looped }

/-! ## Registries -/

/-- uvm_registry.py 63-101, 213-260: the class dictionary of a registry; `objs[tname] = Constr` in the constructor of the proxy,
`objs[self.tname](name)` when it is asked to create. -/
abbrev Classes := String → Option Nat

def addClass (c : Classes) (tname : String) (constr : Nat) : Classes := fun n => if n = tname then some constr else c n

def construct (c : Classes) (tname : String) : Option Nat := c tname

end Verif.Factory
