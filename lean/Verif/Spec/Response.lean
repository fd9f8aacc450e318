import Verif.Model.Response
/-! # What the response queue should do -/
namespace Verif.Response
variable {α : Type} (tid : α → Int)

/-- The response a get with this id should obtain from a queue: the oldest (id -1), or the oldest with this id; and what remains. -/
def Obtains (id : Int) (q : List α) (x : α) (q' : List α) : Prop :=
  if id = -1 then q = x :: q' else ∃ a b, q = a ++ x :: b ∧ q' = a ++ b ∧ tid x = id ∧ ∀ y ∈ a, tid y ≠ id

/-- A get with this id has nothing to obtain. -/
def Nothing (id : Int) (q : List α) : Prop := if id = -1 then q = [] else ∀ y ∈ q, tid y ≠ id

/-- The abstract queue: contents, depth, reporting switched off, and the unfinished get of each coroutine. -/
structure A (α : Type) where
  q : List α
  depth : Int
  off : Bool
  pend : Nat → Option Int

/-- The id the coroutine is waiting for. -/
def waitingFor : Task → Option Int
  | .idle => none
  | .first id _ => some id
  | .more id _ _ => some id

def abs (s : State α) : A α := ⟨s.queue, s.depth, s.errDisabled, fun t => waitingFor (s.tasks t)⟩

/-- Coroutine `t` has this unfinished get from now on. -/
def setPend (p : Nat → Option Int) (t : Nat) (k : Option Int) : Nat → Option Int := fun u => if u = t then k else p u

/-- Allowed effect of each call (or resumption of a suspended get). -/
inductive Rel : A α → Op α → Out α → A α → Prop
  | stored {a x} : (a.depth = -1 ∨ (a.q.length : Int) < a.depth) → Rel a (.put x) (.stored x) { a with q := a.q ++ [x] }
  | dropped {a x} : a.depth ≠ -1 → a.depth ≤ a.q.length → Rel a (.put x) (.dropped x (!a.off)) a
  | got {a t id x q'} : a.pend t = none → Obtains tid id a.q x q' → Rel a (.get t id) (.got t id x) { a with q := q' }
  | blocked {a t id} : a.pend t = none → Nothing tid id a.q →
      Rel a (.get t id) .blocked { a with pend := setPend a.pend t (some id) }
  | busy {a t id} : a.pend t ≠ none → Rel a (.get t id) .nothing a
  | resumed {a t id x q'} : a.pend t = some id → Obtains tid id a.q x q' →
      Rel a (.resume t) (.got t id x) { a with q := q', pend := setPend a.pend t none }
  | again {a t} : a.pend t ≠ none → Rel a (.resume t) .blocked a
  | spurious {a t} : Rel a (.resume t) .nothing a
  | kill {a t} : Rel a (.kill t) .nothing { a with pend := setPend a.pend t none }
  | clear {a} : Rel a .clear .unit { a with q := [] }
  | depth {a d} : Rel a (.setDepth d) .unit { a with depth := d }
  | off {a b} : Rel a (.setErrDisabled b) .unit { a with off := b }

/-- The responses stored, and those handed out, in order. -/
def storedOf : List (Out α) → List α
  | [] => []
  | .stored x :: l => x :: storedOf l
  | _ :: l => storedOf l
def gotOf : List (Out α) → List α
  | [] => []
  | .got _ _ x :: l => x :: gotOf l
  | _ :: l => gotOf l

/-- Coroutine `t` is suspended in a get with this id and no wake-up is pending. -/
def Stuck (s : State α) (t : Nat) (id : Int) : Prop :=
  s.tasks t = .first id false ∨ ∃ n, s.tasks t = .more id n false

/-- A history in which only coroutine `t` gets, and the queue is not cleared. -/
def OneGetter (t : Nat) : List (Op α) → Prop
  | [] => True
  | .get u _ :: l => u = t ∧ OneGetter t l
  | .clear :: _ => False
  | _ :: l => OneGetter t l

end Verif.Response
