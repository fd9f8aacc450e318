import Verif.Model.Pool
/-!
# What a pool holds, read off the history of calls

`valueOf mk h k` is the value a user expects under key `k` after the calls `h`
(most recent call first); it looks only at the calls.
-/
namespace Verif.Pool
variable {K V : Type} [DecidableEq K]

/-- The value stored under `k` by the calls, most recent first: the last store since the
last deletion; a `get` of an absent key stores the default of a typed pool. -/
def valueOf (mk : Option V) : List (Op K V) → K → Option V
  | [], _ => none
  | .add k' v :: h, k => if k = k' then some v else valueOf mk h k
  | .setItem k' v :: h, k => if k = k' then some v else valueOf mk h k
  | .get k' :: h, k => if k = k' then (match valueOf mk h k with | some v => some v | none => mk)
      else valueOf mk h k
  | .delete k' :: h, k => if k = k' then none else valueOf mk h k
  | .clear :: _, _ => none
  | _ :: h, k => valueOf mk h k

/-- Insertion order, read off the calls (most recent first): a key newly stored goes to the end. -/
def orderOf (mk : Option V) : List (Op K V) → List K
  | [] => []
  | .add k _ :: h => if (valueOf mk h k).isSome then orderOf mk h else orderOf mk h ++ [k]
  | .setItem k _ :: h => if (valueOf mk h k).isSome then orderOf mk h else orderOf mk h ++ [k]
  | .get k :: h => if (valueOf mk h k).isSome ∨ mk = none then orderOf mk h else orderOf mk h ++ [k]
  | .delete k :: h => (orderOf mk h).filter (· ≠ k)
  | .clear :: _ => []
  | _ :: h => orderOf mk h

end Verif.Pool
