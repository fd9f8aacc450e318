import Verif.Model.Domain
import Verif.Model.PhaseLook
/-!
# Model of the phase domains of components

src/uvm/base/uvm_component.py 203, 268 (a component is put into the domain of its parent), 970-992 (`set_domain`), 994-1000 (`get_domain`),
1002-1046 (`define_domain`); src/uvm/base/uvm_root.py 175-188 (the root and its domain); src/uvm/base/uvm_topdown_phase.py 84,
uvm_bottomup_phase.py and uvm_task_phase.py (which components take part in a phase).

Phases are those of `Verif.Phase` and `Verif.Domain`.  `define_domain` is not overridden.  Names of components play no part: `m_children` is
taken in order of creation.  Not modelled: states of the phases (`add` makes a phase DORMANT, which it is), callbacks, and phases that the user adds to
a domain themselves.
-/
namespace Verif.CompDomain

/-- A component: its parent and `m_domain`. -/
structure Comp where
  parent : Option Nat
  domain : Nat
deriving DecidableEq, Repr

/-- The phases, the names of domains and schedules, and the components in order of creation; component 0 is the root. -/
structure State where
  dom : Domain.State
  tops : Nat → Option String
  comps : List Comp

def upd {α : Type} (f : Nat → α) (a : Nat) (x : α) : Nat → α := fun b => if b = a then x else f b

/-- uvm_root.py 183-187: the domains and the root. -/
def start : State :=
  let r := Domain.getCommon Domain.init
  let u := r.1.uvm.getD 0
  { dom := r.1, tops := upd (upd (upd (fun _ => none) r.2.1 (some "common")) u (some "uvm")) (r.1.sched.getD 0) (some "uvm_sched"),
    comps := [⟨none, u⟩] }

/-- `get_name()` of a phase; uvm_phase.py 274 for the end nodes, 475 for nodes. -/
def nm (s : State) (a : Nat) : String :=
  match s.tops a with
  | some n => n
  | none =>
    match s.dom.ph.kind a with
    | .node => (Domain.nodeName s.dom a).getD ""
    | .terminal => (((s.dom.ph.parent a).bind s.tops).getD "") ++ " end"
    | _ => ((s.dom.names.find? (·.1 == a)).map (·.2)).getD ""

/-- uvm_domain.py 192-203: `UVMDomain(name)`. -/
def newDomain (s : State) (name : String) : State :=
  { s with dom := (Domain.newDomain s.dom name).1, tops := upd s.tops s.dom.ph.next (some name) }

/-- uvm_component.py 268: a new component below `p`. -/
def newComp (s : State) (p : Nat) : State :=
  match s.comps[p]? with
  | none => s
  | some c => { s with comps := s.comps ++ [⟨some p, c.domain⟩] }

/-- uvm_domain.py 164-175: `schedule.add(XPhase.get())` for a phase that exists. -/
def addOld (r : Domain.State × Bool) (self : Nat) (name : String) : Domain.State × Bool :=
  match Domain.impOf r.1 name with
  | none => (r.1, false)
  | some i =>
    let a := Phase.step r.1.ph (.add self i none none none)
    ({ r.1 with ph := a.1 }, r.2 && decide (a.2 = .ok))

/-- uvm_component.py 1039-1041: a schedule with the run-time phases is added to the domain. -/
def addSched (s : State) (d : Nat) : State × Bool :=
  let k := s.dom.ph.next
  let s1 := { s.dom with ph := (Phase.step s.dom.ph (.newTop false)).1 }
  let r := Domain.uvmNames.foldl (fun r n => addOld r k n) (s1, true)
  let a := Phase.step r.1.ph (.add d k none none none)
  ({ s with dom := { r.1 with ph := a.1 }, tops := upd s.tops k (some "uvm_sched") }, r.2 && decide (a.2 = .ok))

/-- uvm_component.py 1042-1044: the domain goes next to the run phase unless it is found in the common domain. -/
def addToCommon (s : State) (d : Nat) : State × Bool :=
  match s.dom.common with
  | none => (s, false)
  | some c =>
    match Phase.find s.dom.ph c d false with
    | some none =>
      let a := Phase.step s.dom.ph (.add c d (Domain.impOf s.dom "run") none none)
      ({ s with dom := { s.dom with ph := a.1 } }, decide (a.2 = .ok))
    | some (some _) => (s, true)
    | none => (s, false)

/-- uvm_component.py 1035-1044: `define_domain`; the flag says nothing went wrong. -/
def defineDomain (s : State) (d : Nat) : State × Bool :=
  match PhaseLook.findByName s.dom.ph (nm s) "uvm_sched" true (s.dom.ph.next + 1) d with
  | some _ => (s, true)
  | none =>
    let a := addSched s d
    let b := addToCommon a.1 d
    (b.1, a.2 && b.2)

def setDom : List Comp → Nat → Nat → List Comp
  | [], _, _ => []
  | c :: l, 0, d => { c with domain := d } :: l
  | c :: l, n + 1, d => c :: setDom l n d

/-- `m_children`. -/
def kids (l : List Comp) (c : Nat) : List Nat := (List.range l.length).filter fun k => (l[k]?.bind (·.parent)) == some c

/-- uvm_component.py 987-992: `set_domain`; the recursion is bounded by the number of components. -/
def setDomain (d : Nat) : Nat → Nat → Bool → State → State × Bool
  | 0, _, _, s => (s, true)
  | n + 1, c, hier, s =>
    let r := defineDomain { s with comps := setDom s.comps c d } d
    if hier then (kids r.1.comps c).foldl (fun r k => let q := setDomain d n k true r.1; (q.1, r.2 && q.2)) r else r

inductive Op where
  | newDomain (name : String)
  | newComp (parent : Nat)
  | setDomain (c d : Nat) (hier : Bool)
deriving DecidableEq, Repr

def step (s : State) : Op → State × Bool
  | .newDomain n => (newDomain s n, true)
  | .newComp p => (newComp s p, true)
  | .setDomain c d h => setDomain d s.comps.length c h s

def run (ops : List Op) : State := ops.foldl (fun s o => (step s o).1) start

/-- uvm_topdown_phase.py 84: does the component take part in the phase? -/
def takesPart (s : State) (c p : Nat) : Bool :=
  let pd := Phase.getDomain s.dom.ph (s.dom.ph.next + 1) p
  pd == s.dom.common || pd == (s.comps[c]?.map (·.domain))

/-- The schedule as `Verif.PhaseRun` executes it; the common domain is phase 0, and the IMP phases are not linked to anything. -/
def graph (s : State) : PhaseRun.Graph :=
  { n := s.dom.ph.next,
    preds := fun a => if a < s.dom.ph.next then Phase.preds s.dom.ph a else [],
    succs := fun a => if a < s.dom.ph.next then Phase.succs s.dom.ph a else [],
    kind := fun a => if s.dom.ph.kind a = .node ∧ a < s.dom.ph.next then Domain.kindOf (Domain.nodeName s.dom a) else .other,
    final := fun a => nm s a == "final" }

end Verif.CompDomain
