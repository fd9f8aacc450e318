import Verif.Model.Factory
/-!
# Model of the queries of `UVMDefaultFactory` (src/uvm/base/uvm_factory.py 721-977): `debug_create_by_type`,
`debug_create_by_name` and `convert2string`/`print_factory`

The factory itself is the one of `Verif.Model.Factory`.  Left out: the padding of the columns, the headings, and the counters `used`.
An override is `selected` when it is the first applicable one of a round; the flag is kept beside the entry of `m_override_info` instead of
in the override, which is the same unless one override is recorded in two rounds (types of the same name).
-/
namespace Verif.Factory

/-- Lines 612-617, 636-641, 681-686, 697-702 in the debugging pass: every applicable override is recorded, the first one is selected. -/
def mark : List Ovr → List (Ovr × Bool)
  | [] => []
  | o :: os => (o, true) :: os.map (fun x => (x, false))

/-- What a debugging pass ends with: `m_override_info` with the flags `selected`, the type, and whether `OVRDLOOP` was reported. -/
structure Found where
  info : List (Ovr × Bool)
  ty : Ty
  loop : Bool
deriving DecidableEq, Repr

/-- 653-718 with `m_debug_pass` = 1.  `none`: recursion limit. -/
def debugFind (e : Env) (f : Factory) (path : String) : Nat → Ty → List (Ovr × Bool) → Option Found
  | 0, _, _ => none
  | fuel + 1, t, info =>
    if info.any (·.1.orig == some t) then some ⟨info, t, true⟩
    else
      match candidates e f t path with
      | [] => some ⟨info, t, false⟩
      | o :: os =>
        if o.ovrd = t then some ⟨info ++ mark (o :: os), t, false⟩
        else debugFind e f path fuel o.ovrd (info ++ mark (o :: os))

/-- 600-611 and 634-635: the overrides the two loops of `find_override_by_name` meet, in order. -/
def namedCandidates (e : Env) (f : Factory) (rn path : String) : List Ovr :=
  (if path ≠ "" then
    (match f.typeNames rn with
      | none => []
      | some t => queue f.inst t).filter (fun o => e.isMatch o.origName rn && e.isMatch o.path path)
   else []) ++ f.typeOvr.filter (·.origName == rn)

/-- What is printed by 905-977: the overrides with their marks ("x" iff not selected) and the name of the type. -/
structure Dump where
  rows : List (Ovr × Bool)
  produces : String
  loop : Bool
deriving DecidableEq, Repr

inductive DebugOut where
  | dump (d : Dump)
  | typeError
  | recursion
deriving DecidableEq, Repr

/-- 889-901: the flag of the class is 0 afterwards, no longer the object `False`. -/
def afterDebug (f : Factory) : Factory := { f with debugPass := false }

/-- 872-901: `debug_create_by_type`.  (After a `RecursionError` the flag of the class would stay 1; no theorem uses that state.) -/
def debugByType (e : Env) (f : Factory) (fuel : Nat) (t : Ty) (parent name : String) : Factory × DebugOut :=
  let f := ensure e f t
  match debugFind e f (instPath parent name) fuel t [] with
  | none => (f, .recursion)
  | some r => (afterDebug f, .dump ⟨r.info, e.name r.ty, r.loop⟩)

/-- 867-901: `debug_create_by_name`; `lookup` is whether the name is in `m_lookup_strs`.  The message of line 886 is a set of
strings, which line 553 of uvm_report_server.py cannot append to a string. -/
def debugByName (e : Env) (f : Factory) (fuel : Nat) (lookup : Bool) (rn parent name : String) : Factory × DebugOut :=
  if (f.typeNames rn).isNone && !lookup then (f, .typeError)
  else
    match namedCandidates e f rn (instPath parent name) with
    | [] => (afterDebug f, .dump ⟨[], rn, false⟩)
    | o :: os =>
      match debugFind e f (instPath parent name) fuel o.ovrd (mark (o :: os)) with
      | none => (f, .recursion)
      | some r => (afterDebug f, .dump ⟨r.info, e.name r.ty, r.loop⟩)

/-! ## Printing -/

/-- The factory with what only printing uses: the keys of `m_type_names` in their order, and `ovrd_type_name` of each type override. -/
structure PF where
  f : Factory := {}
  keys : List String := []
  ovrdNames : List String := []

/-- A new key of the dictionary goes last. -/
def addKey (ks : List String) (n : String) : List String := if ks.contains n then ks else ks ++ [n]

/-- 172-178: the key added by `register`. -/
def regKey (e : Env) (f : Factory) (ks : List String) (t : Ty) : List String :=
  if usable (e.name t) && (f.typeNames (e.name t)).isNone then addKey ks (e.name t) else ks

def ensureKey (e : Env) (f : Factory) (ks : List String) (t : Ty) : List String :=
  if f.types.contains t then ks else regKey e f ks t

def ensure2Keys (e : Env) (f : Factory) (ks : List String) (o v : Ty) : List String :=
  ensureKey e (ensure e f o) (ensureKey e f ks o) v

/-- 259: `ovrd_type_name` of the replaced entries. -/
def replaceNames (p : Ovr → Bool) (n : String) : List Ovr → List String → List String
  | o :: os, s :: ss => (if p o then n else s) :: replaceNames p n os ss
  | _, ss => ss

/-- The ordered keys after a call. -/
def stepKeys (e : Env) (s : PF) : Op → List String
  | .register t => regKey e s.f s.keys t
  | .typeByType o v _ => ensure2Keys e s.f s.keys o v
  | .inst o v _ => ensure2Keys e s.f s.keys o v
  | .typeByName on vn _ =>
    if (s.f.typeNames vn).isSome ∧ on ≠ vn ∧ s.f.typeOvr.any (·.origName == on) = false then addKey s.keys on else s.keys
  | _ => s.keys

/-- `ovrd_type_name` of the type overrides after a call (73, 259, 323: the last takes the name that was given). -/
def stepNames (e : Env) (s : PF) : Op → List String
  | .typeByType o v r =>
    if s.f.typeOvr.any (typeApplies e o) then
      if r = .false_ then s.ovrdNames else replaceNames (typeApplies e o) (e.name v) s.f.typeOvr s.ovrdNames
    else s.ovrdNames ++ [e.name v]
  | .typeByName on vn r =>
    match s.f.typeNames vn with
    | none => s.ovrdNames
    | some v =>
      if on = vn then s.ovrdNames
      else if s.f.typeOvr.any (·.origName == on) then
        if r.truthy = false then s.ovrdNames else replaceNames (·.origName == on) vn s.f.typeOvr s.ovrdNames
      else s.ovrdNames ++ [e.name v]
  | _ => s.ovrdNames

def stepP (e : Env) (fuel : Nat) (s : PF) (op : Op) : PF :=
  { f := step e fuel s.f op, keys := stepKeys e s op, ovrdNames := stepNames e s op }

/-- Python `d[k] = v`. -/
def setKey (d : List (String × List Ovr)) (k : String) (v : List Ovr) : List (String × List Ovr) :=
  match d with
  | [] => [(k, v)]
  | (k', v') :: d => if k' = k then (k, v) :: d else (k', v') :: setKey d k v

/-- 738-744: `obj` is the queue (line 739), so the key is the type name of the class `UVMQueue` (uvm_queue.py 246). -/
def sortedQueues (inst : List (Ty × List Ovr)) : List (String × List Ovr) :=
  inst.foldl (fun d x => setKey d "uvm_queue" x.2) []

/-- The parts of the text. -/
structure Printout where
  noOverrides : Bool
  instRows : List (String × String × String)
  typeRows : List (String × String)
  total : Option Nat
  names : List String
deriving DecidableEq, Repr

/-- 721-853: `convert2string`. -/
def convert2string (e : Env) (s : PF) (allTypes : Int) : Printout :=
  let sorted := sortedQueues s.f.inst
  let shown := s.keys.filter fun k =>
    match s.f.typeNames k with
    | none => false
    | some t => !(decide (allTypes < 2) && e.isMatch "uvm_*" (e.name t)) && k == e.name t
  { noOverrides := s.f.typeOvr.isEmpty && sorted.isEmpty
    instRows := sorted.flatMap (fun q => q.2.map (fun o => (o.origName, o.path, e.name o.ovrd)))
    typeRows := (s.f.typeOvr.zip s.ovrdNames).map (fun x => (x.1.origName, x.2))
    total := if allTypes ≥ 1 ∧ s.keys ≠ [] then some s.f.types.length else none
    names := if allTypes ≥ 1 then shown else [] }

end Verif.Factory
