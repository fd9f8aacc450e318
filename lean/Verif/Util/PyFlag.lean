/-!
# Python values used as flags

`x is False` tells `0` and `False` apart, `not x` does not.
-/
namespace Verif

inductive PyFlag where
  | int0 | int1 | false_ | true_
deriving DecidableEq, Repr

/-- Truth value of the flag (`if x`). -/
def PyFlag.truthy : PyFlag → Bool
  | .int0 | .false_ => false
  | .int1 | .true_ => true

end Verif
