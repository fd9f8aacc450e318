import Verif.Model.Arbiter
/-! # Vocabulary for the properties of arbitration -/
namespace Verif.Arbiter

/-- `Ancestor a s`: `a` is the parent of `s`, or the parent of its parent, ... -/
inductive Ancestor : Seq → Seq → Prop
  | parent {a s} : s.parent = some a → Ancestor a s
  | up {a b s} : s.parent = some b → Ancestor a b → Ancestor a s

/-- The two handles denote the same sequence (sequences have distinct instance ids). -/
def Same (a b : Seq) : Prop := a.inst = b.inst

/-- `s` is `a` or one of its descendants. -/
def WithinFamily (a s : Seq) : Prop := Same a s ∨ ∃ b, Ancestor b s ∧ Same a b

/-- Some lock is held by a sequence that is neither `s` nor an ancestor of `s`. -/
def LockedOut (locks : List Seq) (s : Seq) : Prop := ∃ l ∈ locks, ¬ WithinFamily l s

/-- A request for an item that may be served now. -/
def Servable (locks : List Seq) (rel : Seq → Bool) (r : Req) : Prop :=
  r.kind = .req ∧ ¬ LockedOut locks r.seq ∧ rel r.seq = true

/-- No lock request is at the head of the queue. -/
def NoLeadingLock (q : List Req) : Prop := ∀ r, q.head? = some r → r.kind ≠ .lock

end Verif.Arbiter
