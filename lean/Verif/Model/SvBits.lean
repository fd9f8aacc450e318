/-!
# Model of the bit helpers of src/uvm/base/sv.py

Non-negative Python integers are naturals.  `none` is a raised exception.
-/
namespace Verif.SvBits

/-- `v & ~m` on non-negative integers: the bits of `v` that are not in `m`. -/
def andNot (v m : Nat) : Nat := v ^^^ (v &&& m)

/-- sv.py 361-362: `clear_bit`. -/
def clearBit (v i : Nat) : Nat := andNot v (1 <<< i)

/-- sv.py 327-345: `set_bit`. -/
def setBit (v i : Nat) (b : Int) : Option Nat :=
  if b = 1 then some (v ||| (1 <<< i))
  else if b = 0 then some (clearBit v i)
  else none

/-- sv.py 348-358: `get_bit`. -/
def getBit (v i : Nat) : Nat := (v >>> i) &&& 1

/-- `int(s, 2)` for a string of `w` ones; `int('', 2)` raises. -/
def vectorOfOnes (w : Nat) : Option Nat :=
  if w = 0 then none else some ((List.range w).foldl (fun a _ => a * 2 + 1) 0)

/-- sv.py 103-105: the loop of `clog2`. -/
def clog2Loop (value res : Nat) : Nat :=
  if value = 0 then res else clog2Loop (value >>> 1) (res + 1)
termination_by value
decreasing_by rw [Nat.shiftRight_eq_div_pow]; omega

/-- sv.py 100-106: `clog2` (`value - 1` is -1 for 0, and the loop is not entered). -/
def clog2 (value : Nat) : Nat := clog2Loop (value - 1) 0

end Verif.SvBits
