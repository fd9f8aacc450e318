import Verif.Model.Phase
/-! # Specification vocabulary for phase schedules -/
namespace Verif.Phase

/-- The phases of `l` follow each other: each has as predecessor only the one before it (the first: `p`) and as successor
only the one after it (the last: `q`). -/
def Linked (s : State) : Option Nat → List Nat → Option Nat → Prop
  | _, [], _ => True
  | p, a :: l, q => preds s a = p.toList ∧ succs s a = (l.head?.or q).toList ∧ Linked s (some a) l q

/-- The phases in schedules are exactly those of the chains `cs`, each once, linked in this order. -/
structure Chains (s : State) (cs : List (List Nat)) : Prop where
  nodup : cs.flatten.Nodup
  mem : ∀ a, a ∈ cs.flatten ↔ a < s.next ∧ s.kind a ≠ .imp
  linked : ∀ c ∈ cs, Linked s none c none

/-- `d` put right before `x`, right after `x`. -/
def insBefore (x : Nat) (d : List Nat) : List Nat → List Nat
  | [] => []
  | a :: l => if a = x then d ++ a :: l else a :: insBefore x d l
def insAfter (x : Nat) (d : List Nat) : List Nat → List Nat
  | [] => []
  | a :: l => if a = x then a :: (d ++ l) else a :: insAfter x d l

/-- What adding `phase` puts into a schedule: one new node for an IMP phase, else the chain of a schedule or domain
that has not been added anywhere; `cs'` are the other chains. -/
inductive Item (s : State) (cs : List (List Nat)) (phase : Nat) : List Nat → List (List Nat) → Prop
  | imp : phase < s.next → s.kind phase = .imp → Item s cs phase [s.next] cs
  | sched {cs1 cs2 : List (List Nat)} {d : List Nat} : cs = cs1 ++ d :: cs2 → d.head? = some phase →
      s.endN phase = d.getLast? → s.kind phase = .schedule ∨ s.kind phase = .domain → Item s cs phase d (cs1 ++ cs2)

/-- The order of the phases after a history of calls that builds schedules without `with_phase` and without giving both
`after_phase` and `before_phase`: phases are put at the end of the schedule, right before or right after another. -/
inductive Sched : List Op → List (List Nat) → Prop
  | nil : Sched [] []
  | newImp {ops : List Op} {cs : List (List Nat)} : Sched ops cs → Sched (ops ++ [.newImp]) cs
  | newTop {ops : List Op} {cs : List (List Nat)} (d : Bool) : Sched ops cs →
      Sched (ops ++ [.newTop d]) (cs ++ [[(runS step init ops).next, (runS step init ops).next + 1]])
  | append {ops : List Op} {cs cs' : List (List Nat)} {self phase x : Nat} {d : List Nat} : Sched ops cs →
      Item (runS step init ops) cs phase d cs' → self < (runS step init ops).next →
      (runS step init ops).endN self = some x → x ∈ cs'.flatten →
      Sched (ops ++ [.add self phase none none none]) (cs'.map (insBefore x d))
  | before {ops : List Op} {cs cs' : List (List Nat)} {self phase x : Nat} {d : List Nat} {b : Option Nat} : Sched ops cs →
      Item (runS step init ops) cs phase d cs' → self < (runS step init ops).next →
      (runS step init ops).endN self ≠ none → below (runS step init ops).next b →
      resolve (runS step init ops) self b = some (some x) → x ≠ self → x ∈ cs'.flatten →
      Sched (ops ++ [.add self phase none none b]) (cs'.map (insBefore x d))
  | after {ops : List Op} {cs cs' : List (List Nat)} {self phase x : Nat} {d : List Nat} {a : Option Nat} : Sched ops cs →
      Item (runS step init ops) cs phase d cs' → self < (runS step init ops).next →
      (runS step init ops).endN self ≠ none → below (runS step init ops).next a →
      resolve (runS step init ops) self a = some (some x) → some x ≠ (runS step init ops).endN self → x ∈ cs'.flatten →
      Sched (ops ++ [.add self phase none a none]) (cs'.map (insAfter x d))

/-- `a` comes before `b` in one of the chains. -/
def Earlier (cs : List (List Nat)) (a b : Nat) : Prop := ∃ c ∈ cs, [a, b].Sublist c

/-- Predecessors and successors say the same. -/
def Mutual (s : State) : Prop := ∀ a b, a < s.next → b < s.next → (b ∈ succs s a ↔ a ∈ preds s b)

/-- Histories that first build schedules as above and then put IMP phases in parallel with others (`with_phase`). -/
inductive Par : List Op → Prop
  | base {ops : List Op} {cs : List (List Nat)} : Sched ops cs → Par ops
  | newImp {ops : List Op} : Par ops → Par (ops ++ [.newImp])
  | with {ops : List Op} {self phase x : Nat} {w : Option Nat} : Par ops → self < (runS step init ops).next →
      phase < (runS step init ops).next → (runS step init ops).kind phase = .imp → below (runS step init ops).next w →
      resolve (runS step init ops) self w = some (some x) → x < (runS step init ops).next →
      some x ≠ (runS step init ops).endN self → (runS step init ops).endN self ≠ none →
      Par (ops ++ [.add self phase w none none])

end Verif.Phase
