import Verif.Model.Phase
/-!
# Model of the names of phases

src/uvm/base/uvm_phase.py 224-278 (`__init__`: names), 480 (`add`: the name of a new node), 583-598 (`get_parent`,
`get_full_name`), 603-636 (`get_schedule`, `get_schedule_name`), 641-668 (`get_domain`, `get_domain_name`).

The graph is `Verif.Phase`; here every phase also has a name.  The loops that climb the parents take a number of turns
they may make at most; the answer is `none` if that is not enough.
-/
namespace Verif.PhaseNames

structure State where
  ph : Phase.State
  name : Nat → String

def init : State := ⟨Phase.init, fun _ => ""⟩

def parent (s : State) (a : Nat) : Option Nat := s.ph.parent a
def kind (s : State) (a : Nat) : Phase.Kind := s.ph.kind a

/-- 606-608: the loop of `get_schedule(hier=True)`. -/
def topSched (s : State) : Nat → Nat → Option Nat
  | 0, _ => none
  | n + 1, a =>
    match parent s a with
    | some p => if kind s p = .schedule then topSched s n p else some a
    | none => some a

/-- 609-615: what is returned for the phase the loop stopped at; `a` is the phase asked. -/
def pickSched (s : State) (a sched : Nat) : Option Nat :=
  if kind s sched = .schedule then some sched
  else if kind s sched = .node then
    match parent s a with
    | some p => if kind s p ≠ .domain then some p else none
    | none => none
  else none

/-- 603-615: `get_schedule(hier)`. -/
def getSchedule (s : State) (hier : Bool) (n a : Nat) : Option (Option Nat) :=
  if hier then (topSched s n a).map (pickSched s a) else some (pickSched s a a)

/-- 629-635: the loop of `get_schedule_name`; `t` is the text so far. -/
def nameLoop (s : State) : Nat → Nat → String → Option String
  | 0, _, _ => none
  | n + 1, sched, t =>
    match parent s sched with
    | some p =>
      if p ≠ sched ∧ kind s p = .schedule then nameLoop s n p (s.name p ++ (if t = "" then "" else ".") ++ t) else some t
    | none => some t

/-- 622-636: `get_schedule_name(hier)`. -/
def scheduleName (s : State) (hier : Bool) (n a : Nat) : Option String :=
  match getSchedule s hier n a with
  | none => none
  | some none => some ""
  | some (some sched) => nameLoop s n sched (s.name sched)

/-- 641-647: `get_domain`. -/
def getDomain (s : State) : Nat → Nat → Option (Option Nat)
  | 0, _ => none
  | n + 1, a =>
    if kind s a = .domain then some (some a)
    else
      match parent s a with
      | none => some none
      | some p => getDomain s n p

/-- 664-668: `get_domain_name`. -/
def domainName (s : State) (n a : Nat) : Option String :=
  (getDomain s n a).map fun
    | none => "unknown"
    | some d => s.name d

/-- 595-598: domain, schedules and own name put together. -/
def joinNames (s : State) (a : Nat) (dom sch : String) : String :=
  let t := if sch ≠ "" then dom ++ "." ++ sch else dom
  if kind s a ≠ .domain ∧ kind s a ≠ .schedule then t ++ "." ++ s.name a else t

/-- 590-599: `get_full_name`. -/
def fullName (s : State) (n a : Nat) : Option String :=
  if kind s a = .imp then some (s.name a)
  else
    match domainName s n a with
    | none => none
    | some dom => (scheduleName s false n a).map (joinNames s a dom)

inductive Op where
  | newImp (name : String)
  | newTop (isDomain : Bool) (name : String)
  | add (self phase : Nat) (w a b : Option Nat)
deriving DecidableEq, Repr

/-- 225, 480, 276: the names of the phases made.  A node has the name of its IMP phase, an end node that of its
schedule and `" end"`. -/
def step (s : State) : Op → State × Phase.Out
  | .newImp t => (⟨(Phase.step s.ph .newImp).1, Phase.set s.name s.ph.next t⟩, .ok)
  | .newTop d t =>
    (⟨(Phase.step s.ph (.newTop d)).1, Phase.set (Phase.set s.name s.ph.next t) (s.ph.next + 1) (t ++ " end")⟩, .ok)
  | .add self phase w a b =>
    let r := Phase.step s.ph (.add self phase w a b)
    (⟨r.1, if r.1.next = s.ph.next then s.name else Phase.set s.name s.ph.next (s.name phase)⟩, r.2)

end Verif.PhaseNames
