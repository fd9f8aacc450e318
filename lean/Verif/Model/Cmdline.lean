import Verif.Model.Text
/-!
# Model of `UVMCmdlineProcessor` (src/uvm/base/uvm_cmdline_processor.py) and of the report settings a component takes
from it (src/uvm/base/uvm_component.py 2344-2546)

Strings are lists of characters.  Debug output is not modelled.  Warnings are recorded as such.  `uvm_is_match` is a
parameter of the settings part (`mt pattern name`); what it decides is the subject of C54.  Python's `int(str)` is a
parameter too (`none` for `ValueError`).
-/
namespace Verif.Cmdline
open Verif.Text

/-- `m_argv`, `m_plus_argv`, `m_uvm_argv`. -/
structure Proc where
  argv : List Str
  plus : List Str
  uvm : List Str
deriving DecidableEq, Repr

/-- One round of `extract_args` (522-535). `arg[0]`, not `arg`, goes into the list of plus arguments. -/
def extractRound (p : Proc) (arg : Str) : Proc :=
  match arg with
  | [] => p
  | c :: r =>
    let p := { p with argv := p.argv ++ [arg] }
    let p := if c = '+' then { p with plus := p.plus ++ [[c]] } else p
    if (r.take 3).map Char.toUpper = "UVM".toList then { p with uvm := p.uvm ++ [arg] } else p

/-- 490-535: constructor and `extract_args`. -/
def extract (argv : List Str) : Proc := argv.foldl extractRound ⟨[], [], []⟩

/-- One round of `get_arg_values` (452-465). -/
def valuesRound (m : Str) (values : List Str) (a : Str) : List Str :=
  if a.length ≥ m.length then
    if a.take m.length = m then values ++ [(a.take a.length).drop m.length] else values
  else values

/-- 419-466: `get_arg_values`: the number and the filled list (cleared first). -/
def getArgValues (p : Proc) (m : Str) (_values : List Str) : Nat × List Str :=
  let r := p.argv.foldl (valuesRound m) []
  (r.length, r)

/-- One round of `get_arg_value` (409-416). -/
def valueRound (m : Str) (st : Nat × List Str) (a : Str) : Nat × List Str :=
  if a.length ≥ m.length then
    if a.take m.length = m then
      (st.1 + 1, if st.1 + 1 = 1 then st.2 ++ [(a.take a.length).drop m.length] else st.2)
    else st
  else st

/-- 392-417: `get_arg_value`; `none`: `uvm_check_output_args` raised `ValueError`. -/
def getArgValue (p : Proc) (m : Str) (value : List Str) : Option (Nat × List Str) :=
  if value = [] then some (p.argv.foldl (valueRound m) (0, value)) else none

/-- Result of `get_arg_matches`; `outside`: the regular expression is not in the modelled part of `re`. -/
inductive Matches where
  | found (n : Nat) (args : List Str) | outside
deriving DecidableEq, Repr

/-- 344-388: `get_arg_matches`. `match[1:len(match)-2]`; the compiled expression is used with `.match` (257-260). -/
def getArgMatches (p : Proc) (m : Str) (_args : List Str) : Matches :=
  if m.length > 2 ∧ m.head? = some '/' ∧ m.getLast? = some '/' then
    match parse ((m.take (m.length - 2)).drop 1) with
    | some ts => let r := p.argv.filter (fun a => matchHere ts a); .found r.length r
    | none => .outside
  else
    let r := p.argv.filter (fun a => decide (a.length ≥ m.length) && decide (a.take m.length = m))
    .found r.length r

/-- 538-572: `m_convert_verb`. -/
def convertVerb (s : Str) : Int :=
  if s = "NONE".toList then 0 else if s = "UVM_NONE".toList then 0
  else if s = "LOW".toList then 100 else if s = "UVM_LOW".toList then 100
  else if s = "MEDIUM".toList then 200 else if s = "UVM_MEDIUM".toList then 200
  else if s = "HIGH".toList then 300 else if s = "UVM_HIGH".toList then 300
  else if s = "FULL".toList then 400 else if s = "UVM_FULL".toList then 400
  else if s = "DEBUG".toList then 500 else if s = "UVM_DEBUG".toList then 500
  else -1

/-- A call that changes the report settings of the component. -/
inductive SetCall where
  | sevAction (sev : Int) (a : Nat) | idAction (id : Str) (a : Nat) | sevIdAction (sev : Int) (id : Str) (a : Nat)
  | sevOver (orig sev : Int) | sevIdOver (orig : Int) (id : Str) (sev : Int)
  | verb (v : Int) | idVerb (id : Str) (v : Int) | later (comp id : Str) (v : Int) (phase : Str) (off : Int)
deriving DecidableEq, Repr

def allStr : Str := "_ALL_".toList

/-- What checking one setting yields: accepted fields (and whether a warning was given), refused with a warning, or an
exception (`IndexError`). -/
inductive Check where
  | accepted (args : List Str) (warned : Bool) | refused | raised
deriving DecidableEq, Repr

/-- 2443-2459: checking one `+uvm_set_action=` value. A wrong number of fields only warns. -/
def checkAction (v : Str) : Check :=
  let args := splitOn ',' v
  match args[2]? with
  | none => .raised
  | some sev =>
    if sev ≠ allStr ∧ stringToSeverity sev = 0 then .refused
    else match args[3]? with
      | none => .raised
      | some act => if stringToAction act = 0 then .refused else .accepted args (args.length != 4)

/-- 2503-2520: checking one `+uvm_set_severity=` value. -/
def checkSev (v : Str) : Check :=
  match splitOn ',' v with
  | [c, id, orig, sev] =>
    if orig ≠ allStr ∧ stringToSeverity orig = 0 then .refused
    else if stringToSeverity sev = -1 then .refused
    else .accepted [c, id, orig, sev] false
  | _ => .refused

/-- 2463-2485: one accepted action setting applied to the component called `name`. -/
def applyAction (mt : Str → Str → Bool) (name : Str) : List Str → List SetCall
  | c :: id :: sev :: act :: _ =>
    if mt c name then
      let a := stringToAction act
      let s := stringToSeverity sev
      if id = allStr then
        if sev = allStr then [.sevAction 0 a, .sevAction 1 a, .sevAction 2 a, .sevAction 3 a] else [.sevAction s a]
      else if sev = allStr then [.idAction id a]
      else [.sevIdAction s id a]
    else []
  | _ => []

/-- 2524-2546: one accepted severity setting. -/
def applySev (mt : Str → Str → Bool) (name : Str) : List Str → List SetCall
  | c :: id :: orig :: sev :: _ =>
    if mt c name then
      let o := stringToSeverity orig
      let s := stringToSeverity sev
      if id = allStr ∧ orig = allStr then [.sevOver 0 s, .sevOver 1 s, .sevOver 2 s, .sevOver 3 s]
      else if id = allStr then [.sevOver o s]
      else if orig = allStr then [.sevIdOver 0 id s, .sevIdOver 1 id s, .sevIdOver 2 id s, .sevIdOver 3 id s]
      else [.sevIdOver o id s]
    else []
  | _ => []

/-- The checking loop (2442-2459 / 2502-2520): accepted settings in order, refusals dropped; `none` when it raised. -/
def checkAll (chk : Str → Check) : List Str → Option (List (List Str))
  | [] => some []
  | v :: vs =>
    match chk v with
    | .accepted a _ => (checkAll chk vs).map (a :: ·)
    | .refused => checkAll chk vs
    | .raised => none

/-- `m_set_cl_action` (2431-2485) for the first component: check, then apply. -/
def setClAction (mt : Str → Str → Bool) (name : Str) (values : List Str) : Option (List SetCall) :=
  (checkAll checkAction values).map (fun l => l.flatMap (applyAction mt name))

/-- `m_set_cl_sev` (2490-2546). -/
def setClSev (mt : Str → Str → Bool) (name : Str) (values : List Str) : Option (List SetCall) :=
  (checkAll checkSev values).map (fun l => l.flatMap (applySev mt name))

/-- 2365-2395: one verbosity setting for a component that is not the root; `none` on an exception. `skip`: the setting
is deleted from the list instead of being applied. -/
inductive VerbRes where
  | skip | calls (l : List SetCall) | raised
deriving DecidableEq, Repr

def verbRound (mt : Str → Str → Bool) (toInt : Str → Option Int) (first : Bool) (name v : Str) : VerbRes :=
  let args := splitOn ',' v
  match args[2]? with
  | none => .raised
  | some vs =>
    let verb := convertVerb vs
    let lenMatch : Bool := args.length ≠ 4 && args.length ≠ 5
    if first && (lenMatch || verb == -1) then .skip
    else match args[0]?, args[1]?, args[3]? with
      | some comp, some id, some phase =>
        let off := if args.length = 5 then (args[4]?).bind toInt else some 0
        match off with
        | none => .raised
        | some off =>
          if mt comp name then
            if (phase = [] ∨ phase = "build".toList ∨ phase = "time".toList) ∧ off = 0 then
              .calls (if id = allStr then [.verb verb] else [.idVerb id verb])
            else .calls (if phase ≠ "time".toList then [.later comp id verb phase off] else [])
          else .calls []
      | _, _, _ => .raised

/-- The loop 2364-2395: `for i in range(len(values))` with `del values[i]` inside. `n` rounds remain. -/
def verbLoop (mt : Str → Str → Bool) (toInt : Str → Option Int) (first : Bool) (name : Str) :
    Nat → Nat → List Str → Option (List SetCall)
  | 0, _, _ => some []
  | n + 1, i, values =>
    match values[i]? with
    | none => none
    | some v =>
      match verbRound mt toInt first name v with
      | .raised => none
      | .skip => verbLoop mt toInt first name n (i + 1) (values.eraseIdx i)
      | .calls l => (verbLoop mt toInt first name n (i + 1) values).map (l ++ ·)

/-- 2344-2399: `m_set_cl_verb` of a component other than the root; `first`: no component has run it before. -/
def setClVerb (mt : Str → Str → Bool) (toInt : Str → Option Int) (first : Bool) (name : Str) (values : List Str) :
    Option (List SetCall) := verbLoop mt toInt first name values.length 0 values

end Verif.Cmdline
