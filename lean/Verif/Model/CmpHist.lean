import Verif.Util.Machine
/-!
# Model of histories of calls of `compare` (src/uvm/base/uvm_object.py 567-650), some of which raise

The state that the calls share: the scope stack of the class (its depth), and the result and the map of the comparer.  What the fields and `do_compare` of the
objects do in a call is given by the call: how many miscompares they record, what `do_compare` returns, or that one of them raises, after how many miscompares
and below how many sub-objects (uvm_comparer.py 336-338: each `compare_object` in progress has pushed one name, which is not popped).  All calls use the
same comparer, on objects whose comparison does not meet the right-hand object again; the calls are made outside of other comparisons, prints and copies.
-/
namespace Verif.CmpHist

/-- One call `lhs.compare(rhs)`. -/
structure Call where
  lhs : Nat
  rhs : Nat
  miscompares : Nat
  verdict : Bool
  raisesAt : Option Nat
deriving DecidableEq, Repr

/-- `scope.depth()`, `comparer.result`, `comparer.compare_map`. -/
structure St where
  depth : Nat
  result : Nat
  map : List (Nat × Nat)
deriving DecidableEq, Repr

def init : St := ⟨0, 0, []⟩

/-- 602-610: at depth 0 the comparer is cleared and the name of the object pushed. -/
def enter (s : St) : St := if s.depth = 0 then ⟨1, 0, []⟩ else s

/-- 642-643: `if scope.depth() == 1: scope.up()`. -/
def leave (s : St) : St := if s.depth = 1 then { s with depth := 0 } else s

/-- 625-628: the right-hand object is in the map (for the object `l`): it is not compared, and `dc` stays 0. -/
def again (s : St) (l : Nat) (c : Call) : St × Option Bool :=
  (leave { s with result := if l ≠ c.lhs then s.result + 1 else s.result }, some false)

/-- 636-648: the fields and `do_compare`. -/
def fields (s : St) (c : Call) : St × Option Bool :=
  let s := { s with map := (c.rhs, c.lhs) :: s.map, result := s.result + c.miscompares }
  match c.raisesAt with
  | some d => ({ s with depth := s.depth + d }, none)
  | none => (leave s, some (decide (s.result = 0) && c.verdict))

/-- 567-648: `compare`: the result of the call, or `none` if it raises. -/
def compare (s : St) (c : Call) : St × Option Bool :=
  match (enter s).map.lookup c.rhs with
  | some l => again (enter s) l c
  | none => fields (enter s) c

end Verif.CmpHist
