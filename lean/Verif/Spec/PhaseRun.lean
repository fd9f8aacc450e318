import Verif.Model.PhaseRun
/-! # The documented life of phases -/
namespace Verif.PhaseRun

/-- The documented state diagram of a phase.  The common domain is never SCHEDULED; only task phases are READY_TO_END, and go back to
EXECUTING if there are new objections; schedules and domains only pretend to execute. -/
def nextOk (k : Kind) (root : Bool) : St → St → Bool
  | .dormant, .scheduled => !root
  | .dormant, .syncing => root
  | .scheduled, .syncing => true
  | .syncing, .started => true
  | .started, .executing => true
  | .executing, .executing => k == .task
  | .executing, .readyToEnd => k == .task
  | .readyToEnd, .executing => k == .task
  | .readyToEnd, .ended => k == .task
  | .executing, .ended => k != .other
  | .executing, .done => k == .other
  | .ended, .cleanup => true
  | .cleanup, .done => true
  | _, _ => false

/-- A list of states, each following the one before in the diagram. -/
def Life (k : Kind) (root : Bool) : St → List St → Prop
  | _, [] => True
  | a, b :: l => nextOk k root a b = true ∧ Life k root b l

/-- The states a phase has gone through, oldest first. -/
def history (s : State) (p : Nat) : List St := ((s.log.filter (fun e => e.1 == p)).map (·.2)).reverse

/-- Predecessors and successors agree, and the common domain comes first. -/
structure Wf (G : Graph) : Prop where
  agree : ∀ p q, q ∈ G.preds p ↔ p ∈ G.succs q
  root : G.preds 0 = []

/-- `a` comes before `b` in the schedule, or is `b`. -/
inductive Before (G : Graph) : Nat → Nat → Prop
  | refl (a) : Before G a a
  | step {a b c} : Before G a b → b ∈ G.preds c → Before G a c

/-- No task can go on. -/
def Stuck (G : Graph) (s : State) : Prop := (∀ p, adv G s p = none) ∧ spawn s = none

/-- The user keeps some phase from ending. -/
def Objected (s : State) : Prop := ∃ p, s.obj p ≠ 0

/-- A schedule in which at most two task phases run in parallel before the same successor, as in the common schedule of UVM (the run phase
and the last of the run-time phases); `r` numbers the phases along the schedule. -/
structure Paired (G : Graph) (r : Nat → Nat) : Prop where
  out : ∀ p, G.n ≤ p → G.kind p = .other
  conn : ∀ p, p < G.n → p ≠ 0 → G.preds p ≠ []
  inside : ∀ p, p < G.n → ∀ q ∈ G.preds p, q < G.n
  rank : ∀ p, p < G.n → ∀ q ∈ G.preds p, r q < r p
  func : ∀ p, p < G.n → G.kind p = .func → sibs G p = some []
  task : ∀ p, p < G.n → G.kind p = .task → sibs G p = some [] ∨
    ∃ q, q ≠ p ∧ q < G.n ∧ G.kind q = .task ∧ sibs G p = some [q] ∧ sibs G q = some [p] ∧ ∀ x ∈ G.preds q, r x < r p

/-- The phase has not yet found its objections dropped. -/
def Early (s : State) (p : Nat) : Prop :=
  s.pc p = .idle ∨ s.pc p = .waitPreds ∨ s.pc p = .syncing ∨ s.pc p = .started ∨ s.pc p = .crit ∨ s.pc p = .ownFirst false

/-- No phase with a sibling gets an objection after its objections were found dropped, and no phase gets ready to end twenty times. -/
def Calm (G : Graph) : State → List Op → Prop
  | _, [] => True
  | s, o :: ops => (∀ p, o = .raise p → sibs G p = some [] ∨ Early s p) ∧ (∀ p, p < G.n → (step G s o).rte p < 20) ∧ Calm G (step G s o) ops

/-- The schedule with the given edges. -/
def ofEdges (n : Nat) (e : List (Nat × Nat)) (kind : Nat → Kind) (final : Nat → Bool) : Graph :=
  { n := n, preds := fun p => (e.filter (fun x => x.2 == p)).map (·.1), succs := fun p => (e.filter (fun x => x.1 == p)).map (·.2),
    kind := kind, final := final }

end Verif.PhaseRun
