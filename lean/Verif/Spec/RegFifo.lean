/-!
# What a FIFO register should be: a bounded queue of `n`-bit words

Independent of the model: a write adds its low `n` bits at the end unless the queue is full, a read removes the
oldest word.
-/
namespace Verif.Spec.RegFifo

/-- One completed access. -/
inductive Ev where
  | put (v : Int)
  | take
  | skip

/-- The low `n` bits of an integer (two's complement for negative ones). -/
def low (n : Nat) (v : Int) : Nat := (v % (2 : Int) ^ n).toNat

/-- One access on the queue. -/
def after (cap n : Nat) (q : List Nat) : Ev → List Nat
  | .put v => if q.length < cap then q ++ [low n v] else q
  | .take => q.drop 1
  | .skip => q

/-- The queue after a sequence of accesses. -/
def queue (cap n : Nat) (evs : List Ev) : List Nat := evs.foldl (after cap n) []

end Verif.Spec.RegFifo
