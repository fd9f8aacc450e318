import Verif.Model.Queue
/-!
# What the queue calls mean, position by position

`Allowed q op out q'`: from contents `q` the call `op` may return `out` and
leave contents `q'`.  Contents are described only through their length and
the element at each position, never through list functions of the model.
-/
namespace Verif.Queue

/-- `q'` is `q` with `x` placed at position `i`, later elements moved up by one. -/
def InsertedAt {α} (q : List α) (i : Nat) (x : α) (q' : List α) : Prop :=
  q'.length = q.length + 1 ∧ (∀ j, j < i → q'[j]? = q[j]?) ∧ q'[i]? = some x ∧
    ∀ j, i ≤ j → q'[j + 1]? = q[j]?

/-- `q'` is `q` without the element `x` at position `i`, later elements moved down by one. -/
def RemovedAt {α} (q : List α) (i : Nat) (x : α) (q' : List α) : Prop := InsertedAt q' i x q

/-- Index `i` is a valid position of `q`. -/
def Valid {α} (q : List α) (i : Int) : Prop := 0 ≤ i ∧ i < q.length

def Allowed {α} (q : List α) : Op α → Out α → List α → Prop
  | .get i, out, q' => q' = q ∧
      ((Valid q i ∧ ∃ a, q[i.toNat]? = some a ∧ out = .val a) ∨ (¬ Valid q i ∧ out = .warned))
  | .size, out, q' => q' = q ∧ out = .int q.length
  | .setItem i x, out, q' =>
      -- Python index rule: position i, or length + i for negative i; otherwise raises
      (∃ j : Nat, (j : Int) = (if 0 ≤ i then i else q.length + i) ∧ j < q.length ∧ out = .unit ∧
          q'.length = q.length ∧ q'[j]? = some x ∧ ∀ k, k ≠ j → q'[k]? = q[k]?) ∨
      ((i < -(q.length : Int) ∨ i ≥ q.length) ∧ out = .raised ∧ q' = q)
  | .getItem i, out, q' => q' = q ∧
      ((∃ j : Nat, (j : Int) = (if 0 ≤ i then i else q.length + i) ∧
          ∃ a, q[j]? = some a ∧ out = .val a) ∨
       ((i < -(q.length : Int) ∨ i ≥ q.length) ∧ out = .raised))
  | .insert i x, out, q' =>
      (Valid q i ∧ out = .unit ∧ InsertedAt q i.toNat x q') ∨ (¬ Valid q i ∧ out = .warned ∧ q' = q)
  | .delete i, out, q' =>
      (Valid q i ∧ out = .unit ∧ ∃ x, RemovedAt q i.toNat x q') ∨
      (i = -1 ∧ out = .unit ∧ q' = []) ∨ (¬ Valid q i ∧ i ≠ -1 ∧ out = .warned ∧ q' = q)
  | .popFront, out, q' => (∃ a, out = .val a ∧ RemovedAt q 0 a q') ∨ (q = [] ∧ out = .raised ∧ q' = [])
  | .front, out, q' => q' = q ∧ ((∃ a, q[0]? = some a ∧ out = .val a) ∨ (q = [] ∧ out = .nothing))
  | .back, out, q' => q' = q ∧
      ((∃ a n, q.length = n + 1 ∧ q[n]? = some a ∧ out = .val a) ∨ (q = [] ∧ out = .nothing))
  | .popBack, out, q' =>
      (∃ a, out = .val a ∧ RemovedAt q q'.length a q') ∨ (q = [] ∧ out = .raised ∧ q' = [])
  | .pushFront x, out, q' => out = .unit ∧ InsertedAt q 0 x q'
  | .pushBack x, out, q' => out = .unit ∧ InsertedAt q q.length x q'
  | .findWith f, out, q' => q' = q ∧ out = .list (q.filter f)
  | .findFirstIndex f, out, q' => q' = q ∧
      ((∃ (i : Nat) (a : α), out = .int i ∧ q[i]? = some a ∧ f a = true ∧
          ∀ j b, j < i → q[j]? = some b → f b = false) ∨
       ((∀ a ∈ q, f a = false) ∧ out = .int (-1)))

end Verif.Queue
