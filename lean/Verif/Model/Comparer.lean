import Verif.Util.Machine
/-!
# Model of the field comparisons of `UVMComparer` (src/uvm/base/uvm_comparer.py 140-389)

The state is `result` (number of miscompares) and the number of miscompares reported (line 387).  Message texts are not
modelled.  `compare_object` is part of the model of objects.
-/
namespace Verif.Comparer

structure State where
  result : Nat
  reports : Nat
deriving DecidableEq, Repr

/-- Python's `a & b` on integers, as the infinite two's complement operation; only the mask `-1` and non-negative masks
occur. -/
def band (a mask : Int) : Int :=
  if mask = -1 then a else a % (mask + 1)

/-- Python's `-1 >> k` for `k ≥ 0`. -/
def shr (a : Int) (k : Nat) : Int := a / 2 ^ k

/-- 366-389: `print_msg`. -/
def printMsg (showMax : Nat) (s : State) : State :=
  { result := s.result + 1, reports := if s.result + 1 ≤ showMax then s.reports + 1 else s.reports }

/-- 217-280: `compare_field_int`, for `size ≤ 64`. -/
def compareFieldInt (showMax : Nat) (s : State) (lhs rhs : Int) (size : Nat) : State × Option Nat :=
  let mask := shr (-1) (64 - size)
  if band lhs mask ≠ band rhs mask then (printMsg showMax s, some 0) else (s, some 1)

/-- 140-173: `compare_field`; the part for more than 64 bits is commented out, the function returns `None`. -/
def compareField (showMax : Nat) (s : State) (lhs rhs : Int) (size : Nat) : State × Option Nat :=
  if size ≤ 64 then compareFieldInt showMax s lhs rhs size else (s, none)

/-- 284-300 and 342-362: `compare_field_real` and `compare_string`, on any values with decidable equality. -/
def compareVal {α : Type} [DecidableEq α] (showMax : Nat) (s : State) (lhs rhs : α) : State × Option Nat :=
  if lhs ≠ rhs then (printMsg showMax s, some 0) else (s, some 1)

/-- A call on the comparer; strings and reals are represented by numbers. -/
inductive Op where
  | field (lhs rhs : Int) (size : Nat) | val (lhs rhs : Nat)
deriving DecidableEq, Repr

def step (showMax : Nat) (s : State) : Op → State × Option Nat
  | .field l r n => compareField showMax s l r n
  | .val l r => compareVal showMax s l r

def init : State := ⟨0, 0⟩

end Verif.Comparer
