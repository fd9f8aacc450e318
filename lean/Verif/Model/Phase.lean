import Verif.Util.Machine
/-!
# Model of phase schedules

src/uvm/base/uvm_phase.py 224-278 (`__init__`), 351-395 (`find`, `is_before`, `is_after`), 434-575 (`add`), 603-615
(`get_schedule`), 641-647 (`get_domain`), 1002-1054 (`m_find_predecessor`, `m_find_successor`).

Phases of all types are numbered in order of creation.  `m_predecessors` and `m_successors` are dictionaries that
assignments share between phases, so a phase holds the number of a dictionary, and the dictionaries (their keys in
insertion order) are kept apart from the phases.  A dictionary is never used both as predecessors and as successors, so
there are two stores.  States, objections, synchronisation and the state-change callback of 570-575 are not modelled
here.
-/
namespace Verif.Phase

inductive Kind where
  | imp | node | schedule | domain | terminal
deriving DecidableEq, Repr

structure State where
  kind : Nat → Kind
  imp : Nat → Option Nat            -- `m_imp`
  parent : Nat → Option Nat         -- `m_parent`
  endN : Nat → Option Nat           -- `m_end_node`
  pr : Nat → Nat                    -- the dictionary that is `m_predecessors`
  sr : Nat → Nat                    -- the dictionary that is `m_successors`
  pd : Nat → List Nat               -- predecessor dictionaries
  sd : Nat → List Nat               -- successor dictionaries
  next : Nat                        -- number of phases
  nref : Nat                        -- number of dictionaries

def init : State :=
  ⟨fun _ => .imp, fun _ => none, fun _ => none, fun _ => none, fun _ => 0, fun _ => 0, fun _ => [], fun _ => [], 0, 0⟩

/-- The keys of a phase's `m_predecessors` and `m_successors`. -/
def preds (s : State) (a : Nat) : List Nat := s.pd (s.pr a)
def succs (s : State) (a : Nat) : List Nat := s.sd (s.sr a)

def set {α : Type} (f : Nat → α) (a : Nat) (x : α) : Nat → α := fun b => if b = a then x else f b

/-- `d[k] = 1` on the keys. -/
def addKey (l : List Nat) (k : Nat) : List Nat := if k ∈ l then l else l ++ [k]

/-- `p.m_predecessors[k] = 1` and `p.m_successors[k] = 1`. -/
def addPred (s : State) (a k : Nat) : State := { s with pd := set s.pd (s.pr a) (addKey (preds s a) k) }
def addSucc (s : State) (a k : Nat) : State := { s with sd := set s.sd (s.sr a) (addKey (succs s a) k) }

/-- `del p.m_predecessors[k]` and `del p.m_successors[k]` for a key that is there. -/
def delPred (s : State) (a k : Nat) : State := { s with pd := set s.pd (s.pr a) ((preds s a).erase k) }
def delSucc (s : State) (a k : Nat) : State := { s with sd := set s.sd (s.sr a) ((succs s a).erase k) }

/-- 224-258: a new phase with empty dictionaries. -/
def new (s : State) (k : Kind) (imp parent : Option Nat) : State :=
  { s with kind := set s.kind s.next k, imp := set s.imp s.next imp, parent := set s.parent s.next parent,
           endN := set s.endN s.next none,
           pr := set s.pr s.next s.nref, sr := set s.sr s.next s.nref,
           pd := set s.pd s.nref [], sd := set s.sd s.nref [], next := s.next + 1, nref := s.nref + 1 }

/-- 273-278: a new schedule or domain, with its end node. -/
def newTop (s : State) (k : Kind) : State :=
  let a := s.next
  let s := new s k none none
  let e := s.next
  let s := new s .terminal none (some a)
  addPred (addSucc { s with endN := set s.endN a (some e) } a e) e a

/-- 603-615 with `hier` false. -/
def getSchedule (s : State) (a : Nat) : Option Nat :=
  match s.kind a with
  | .schedule => some a
  | .node =>
    match s.parent a with
    | none => none
    | some p => if s.kind p = .domain then none else some p
  | _ => none

/-- 641-647; `fuel` bounds the climb. -/
def getDomain (s : State) : Nat → Nat → Option Nat
  | 0, _ => none
  | n + 1, a =>
    if s.kind a = .domain then some a
    else
      match s.parent a with
      | none => none
      | some p => getDomain s n p

/-- 1020-1022, 1049-1051. -/
def inScope (s : State) (stay : Bool) (orig a : Nat) : Bool :=
  !stay || getSchedule s a == getSchedule s orig || getDomain s (s.next + 1) a == getDomain s (s.next + 1) orig

/-- `phase == self.m_imp or phase == self`. -/
def isPhase (s : State) (phase a : Nat) : Bool := s.imp a == some phase || a == phase

/-- 1002-1027: `m_find_predecessor`.  Only the first predecessor in scope is followed.  The answer is `none` when the
recursion does not end. -/
def findPred (s : State) (stay : Bool) (orig phase : Nat) : Nat → Nat → Option (Option Nat)
  | 0, _ => none
  | n + 1, a =>
    if isPhase s phase a then some (some a)
    else
      match (preds s a).find? (inScope s stay orig) with
      | none => some none
      | some p => findPred s stay orig phase n p

/-- 1033-1054: `m_find_successor`. -/
def findSucc (s : State) (stay : Bool) (orig phase : Nat) : Nat → Nat → Option (Option Nat)
  | 0, _ => none
  | n + 1, a =>
    if isPhase s phase a then some (some a)
    else
      match (succs s a).find? (inScope s stay orig) with
      | none => some none
      | some p => findSucc s stay orig phase n p

/-- 351-366. -/
def find (s : State) (a phase : Nat) (stay : Bool) : Option (Option Nat) :=
  if isPhase s phase a then some (some phase)
  else
    match findPred s stay a phase (s.next + 1) a with
    | none => none
    | some (some x) => some (some x)
    | some none => findSucc s stay a phase (s.next + 1) a

/-- 382-395. -/
def isBefore (s : State) (a phase : Nat) : Option Bool :=
  if isPhase s phase a then some false
  else (findSucc s false a phase (s.next + 1) a).map Option.isSome
def isAfter (s : State) (a phase : Nat) : Option Bool :=
  if isPhase s phase a then some false
  else (findPred s false a phase (s.next + 1) a).map Option.isSome

inductive Out where
  | ok | fatal | error
deriving DecidableEq, Repr

/-- 443-462: an argument that is an IMP phase is looked up; `none` for a fatal error or endless recursion. -/
def resolve (s : State) (a : Nat) : Option Nat → Option (Option Nat)
  | none => some none
  | some p =>
    if s.kind p = .imp then
      match find s a p true with
      | some (some x) => some (some x)
      | _ => none
    else some (some p)

/-- 536-538: the loop over the predecessors of the phase `b`; `false` for a KeyError. -/
def loopBefore (b k : Nat) : List Nat → State → State × Bool
  | [], s => (s, true)
  | p :: l, s => if b ∈ succs s p then loopBefore b k l (addSucc (delSucc s p b) p k) else (s, false)

/-- 545-547: the loop over the successors of the phase `a`. -/
def loopAfter (a k : Nat) : List Nat → State → State × Bool
  | [], s => (s, true)
  | p :: l, s => if a ∈ preds s p then loopAfter a k l (addPred (delPred s p a) p k) else (s, false)

/-- 526-531. -/
def linkWith (s : State) (b e w : Nat) : State :=
  let s := { s with pr := set s.pr b (s.pr w) }
  let s := { s with sr := set s.sr e (s.sr w) }
  let s := (preds s w).foldl (fun s p => addSucc s p b) s
  (succs s w).foldl (fun s p => addPred s p e) s

/-- 534-540. -/
def linkBefore (s : State) (b e x : Nat) : State × Out :=
  let s := { s with pr := set s.pr b (s.pr x) }
  let s := addSucc s e x
  let r := loopBefore x b (preds s x) s
  if r.2 then
    let s := { r.1 with pr := set r.1.pr x r.1.nref, pd := set r.1.pd r.1.nref [], nref := r.1.nref + 1 }
    (addPred s x e, .ok)
  else (r.1, .error)

/-- 543-549. -/
def linkAfter (s : State) (b e x : Nat) : State × Out :=
  let s := { s with sr := set s.sr e (s.sr x) }
  let s := addPred s b x
  let r := loopAfter x e (succs s x) s
  if r.2 then
    let s := { r.1 with sr := set r.1.sr x r.1.nref, sd := set r.1.sd r.1.nref [], nref := r.1.nref + 1 }
    (addSucc s x b, .ok)
  else (r.1, .error)

/-- 552-562; line 562 deletes from the successors of `before_phase`, not from its predecessors. -/
def linkBetween (s : State) (b e after before : Nat) : State × Out :=
  match isBefore s after before with
  | none => (s, .error)
  | some false => (s, .fatal)
  | some true =>
    let s := addPred s b after
    let s := addSucc s e before
    let s := addSucc s after b
    let s := addPred s before e
    if before ∈ succs s after then
      let s := delSucc s after before
      if after ∈ succs s before then (delSucc s before after, .ok) else (s, .error)
    else (s, .ok)

/-- 503-562: linking the begin and end nodes of what is added. -/
def link (s : State) (b e : Nat) : Option Nat → Option Nat → Option Nat → State × Out
  | some w, _, _ => (linkWith s b e w, .ok)
  | none, none, some x => linkBefore s b e x
  | none, some x, none => linkAfter s b e x
  | none, some x, some y => linkBetween s b e x y
  | none, none, none => (s, .ok)

/-- 474-500 and the linking: a new node for an IMP phase, else the schedule itself. -/
def place (s : State) (self phase : Nat) (w a b : Option Nat) : State × Out :=
  if s.kind phase = .imp then link (new s .node (some phase) (some self)) s.next s.next w a b     -- 474-480
  else
    match s.endN phase with
    | none => (s, .error)
    | some e => link { s with parent := set s.parent phase (some self) } phase e w a b            -- 498-500

/-- 434-575: `self.add(phase, with_phase, after_phase, before_phase)`.  Adding a phase that is neither an IMP phase nor a
schedule or domain is not modelled (it raises, because there is no end node). -/
def add (s : State) (self phase : Nat) (w a b : Option Nat) : State × Out :=
  match resolve s self w with
  | none => (s, .fatal)
  | some w =>
    match resolve s self b with
    | none => (s, .fatal)
    | some b =>
      match resolve s self a with
      | none => (s, .fatal)
      | some a =>
        if w.isSome && (a.isSome || b.isSome) then (s, .fatal)                                  -- 464-467
        else if b = some self ∨ a = s.endN self ∨ w = s.endN self then (s, .fatal)             -- 469-471
        else
          let b' := if w = none ∧ a = none ∧ b = none then s.endN self else b                   -- 503-506
          place s self phase w a b'

inductive Op where
  | newImp
  | newTop (isDomain : Bool)
  | add (self phase : Nat) (w a b : Option Nat)
deriving DecidableEq, Repr

def below (n : Nat) : Option Nat → Bool
  | none => true
  | some a => a < n

/-- One call; calls that name phases that do not exist are no calls. -/
def step (s : State) : Op → State × Out
  | .newImp => (new s .imp none none, .ok)
  | .newTop d => (newTop s (if d then .domain else .schedule), .ok)
  | .add self phase w a b =>
    if self < s.next ∧ phase < s.next ∧ below s.next w ∧ below s.next a ∧ below s.next b then add s self phase w a b
    else (s, .fatal)

end Verif.Phase
