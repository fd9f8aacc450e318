import Verif.Model.Semaphore
/-! # What a semaphore is for -/
namespace Verif.Semaphore

/-- A run: the semaphore, and who holds a token (one entry per token). -/
structure Run where
  sem : Sem
  holders : List Nat := []

/-- A well-behaved event with single tokens: a task puts back only a token it holds. -/
inductive Next (r : Run) : Run → Prop
  | get (t : Nat) : Next r ⟨(step r.sem (.get t 1)).1, ((step r.sem (.get t 1)).2.map (·.1)).toList ++ r.holders⟩
  | resume : Next r ⟨(step r.sem .resume).1, ((step r.sem .resume).2.map (·.1)).toList ++ r.holders⟩
  | put (t : Nat) (h : t ∈ r.holders) : Next r ⟨(step r.sem (.put t 1)).1, r.holders.erase t⟩

/-- The runs of a semaphore with `n` tokens. -/
inductive Reach (n : Nat) : Run → Prop
  | init : Reach n ⟨create n, []⟩
  | next {r r'} : Reach n r → Next r r' → Reach n r'

/-- The runs in which a task that was woken continues before the next token is put back. -/
inductive Prompt (n : Nat) : Run → Prop
  | init : Prompt n ⟨create n, []⟩
  | get {r} (t : Nat) : Prompt n r → Prompt n ⟨(step r.sem (.get t 1)).1, ((step r.sem (.get t 1)).2.map (·.1)).toList ++ r.holders⟩
  | resume {r} : Prompt n r → Prompt n ⟨(step r.sem .resume).1, ((step r.sem .resume).2.map (·.1)).toList ++ r.holders⟩
  | put {r} (t : Nat) (h : t ∈ r.holders) (hp : r.sem.granted = none) : Prompt n r → Prompt n ⟨(step r.sem (.put t 1)).1, r.holders.erase t⟩

/-- The tasks waiting for a token, first come first. -/
def queue (s : Sem) : List Nat := (s.granted.toList ++ s.waiting).map (·.1)

end Verif.Semaphore
