import Verif.Model.Phase
import Verif.Model.PhaseRun
/-!
# Model of `UVMDomain` (src/uvm/base/uvm_domain.py): the common domain, the uvm domain and their phases

The schedule is built with `Verif.Phase`; `graphOf` hands it to `Verif.PhaseRun`, which executes it.  The IMP phases
(`UVMBuildPhase.get()` …, uvm_common_phases.py and uvm_runtime_phases.py) are singletons, made when first asked for; each
is asked for first where it is added.  Not modelled: `jump_all` (there is no `jump`), debug output, the module-level
variables `build_ph` … (40-47), which no function assigns (132-146 are local variables).
-/
namespace Verif.Domain

/-- The class variables `m_common_domain`, `m_uvm_domain`, `m_uvm_schedule`, `m_domains` (61-64; the names in order), the
phases, and the names of the IMP phases. -/
structure State where
  ph : Phase.State
  common : Option Nat
  uvm : Option Nat
  sched : Option Nat
  domains : List (String × Nat)
  names : List (Nat × String)

def init : State := ⟨Phase.init, none, none, none, [], []⟩

/-- `m_domains[name] = d`: the key keeps its place. -/
def setDomain (l : List (String × Nat)) (name : String) (d : Nat) : List (String × Nat) :=
  if l.any (·.1 == name) then l.map (fun e => if e.1 == name then (name, d) else e) else l ++ [(name, d)]

/-- 192-203: `UVMDomain(name)`.  The flag is true if the name is not unique, which is reported. -/
def newDomain (s : State) (name : String) : State × Nat × Bool :=
  ({ s with ph := (Phase.step s.ph (.newTop true)).1, domains := setDomain s.domains name s.ph.next }, s.ph.next, s.domains.any (·.1 == name))

/-- 117-125, 164-175: `self.add(XPhase.get())`; the second says the call went well. -/
def addPhase (r : State × Bool) (self : Nat) (name : String) : State × Bool :=
  let i := r.1.ph.next
  let p := (Phase.step r.1.ph .newImp).1
  let a := Phase.step p (.add self i none none none)
  ({ r.1 with ph := a.1, names := r.1.names ++ [(i, name)] }, r.2 && decide (a.2 = .ok))

/-- 117-125. -/
def commonNames : List String :=
  ["build", "connect", "end_of_elaboration", "start_of_simulation", "run", "extract", "check", "report", "final"]

/-- 164-175. -/
def uvmNames : List String :=
  ["pre_reset", "reset", "post_reset", "pre_configure", "configure", "post_configure", "pre_main", "main", "post_main", "pre_shutdown", "shutdown",
   "post_shutdown"]

/-- 185-190: `get_uvm_domain`. -/
def getUvm (s : State) : State × Nat × Bool :=
  match s.uvm with
  | some d => (s, d, true)
  | none =>
    let (s1, d, _) := newDomain s "uvm"
    let k := s1.ph.next
    let s2 := { s1 with ph := (Phase.step s1.ph (.newTop false)).1 }
    let (s3, ok) := uvmNames.foldl (fun r n => addPhase r k n) (s2, true)
    let a := Phase.step s3.ph (.add d k none none none)
    ({ s3 with ph := a.1, uvm := some d, sched := some k }, d, ok && decide (a.2 = .ok))

/-- The IMP phase with this name. -/
def impOf (s : State) (name : String) : Option Nat := (s.names.find? (·.2 == name)).map (·.1)

/-- `domain.find(XPhase.get())`. -/
def findPhase (s : State) (d : Nat) (name : String) : Option Nat :=
  match impOf s name with
  | none => none
  | some i => (Phase.find s.ph d i true).getD none

/-- 109-154: `get_common_domain`.  132-147: every phase but the last must be found.  The flag: nothing went wrong. -/
def getCommon (s : State) : State × Nat × Bool :=
  match s.common with
  | some d => (s, d, true)
  | none =>
    let (s1, d, _) := newDomain s "common"
    let (s2, ok) := commonNames.foldl (fun r n => addPhase r d n) (s1, true)
    let found := (commonNames.dropLast).all fun n => (findPhase s2 d n).isSome
    let s3 := { s2 with common := some d, domains := setDomain s2.domains "common" d }
    let (s4, u, ok') := getUvm s3
    let a := Phase.step s4.ph (.add d u (findPhase s4 d "run") none none)
    ({ s4 with ph := a.1 }, d, ok && found && ok' && decide (a.2 = .ok))

inductive Call where
  | common | uvm | schedule
deriving DecidableEq, Repr

/-- 83-92 (`get_uvm_schedule`), 95-154, 178-190: a call, what it returns, and whether all went well. -/
def step (s : State) : Call → State × Option Nat × Bool
  | .common => let r := getCommon s; (r.1, some r.2.1, r.2.2)
  | .uvm => let r := getUvm s; (r.1, some r.2.1, r.2.2)
  | .schedule => let r := getUvm s; (r.1, r.1.sched, r.2.2)

def run (s : State) (calls : List Call) : State := calls.foldl (fun s c => (step s c).1) s

/-- The phases that are executed: those that are not IMP phases, the common domain first. -/
def nodes (s : State) (c : Nat) : List Nat := c :: (List.range s.ph.next).filter fun a => a ≠ c ∧ s.ph.kind a ≠ .imp

/-- The name of a phase node: that of its IMP phase. -/
def nodeName (s : State) (a : Nat) : Option String :=
  match s.ph.imp a with
  | none => none
  | some i => (s.names.find? (·.1 == i)).map (·.2)

/-- uvm_common_phases.py and uvm_runtime_phases.py: the base classes: `run` and the run-time phases are task phases. -/
def kindOf : Option String → PhaseRun.Kind
  | none => .other
  | some n => if n = "run" ∨ n ∈ uvmNames then .task else .func

/-- One row for each phase that is executed: name, predecessors, successors (as places in `nodes`). -/
def table (s : State) (c : Nat) : List (Option String × List Nat × List Nat) :=
  (nodes s c).map fun a => (nodeName s a, (Phase.preds s.ph a).map fun b => (nodes s c).idxOf b, (Phase.succs s.ph a).map fun b => (nodes s c).idxOf b)

/-- The schedule as `Verif.PhaseRun` executes it; 1149: a phase called "final" is special. -/
def ofTable (t : List (Option String × List Nat × List Nat)) : PhaseRun.Graph :=
  { n := t.length,
    preds := fun p => (t.getD p (none, [], [])).2.1,
    succs := fun p => (t.getD p (none, [], [])).2.2,
    kind := fun p => kindOf (t.getD p (none, [], [])).1,
    final := fun p => (t.getD p (none, [], [])).1 == some "final" }

end Verif.Domain
