import Verif.Model.RegField
/-!
# The documented access policies (table in the documentation of `set_access`, lines 259-288), bit by bit
-/
namespace Verif.RegField

/-- What a write does to one bit: given the current bit and the written bit. -/
inductive WEffect where
  | noEffect | asIs | clears | sets
  | oneClears | oneSets | oneToggles | zeroClears | zeroSets | zeroToggles
  | firstAsIs           -- as-is if no write happened since the hard reset
deriving DecidableEq, Repr

/-- What a read does to every bit after sampling. -/
inductive REffect where
  | noEffect | clears | sets | error
deriving DecidableEq, Repr

/-- The documentation's table, line by line. -/
def doc : Acc → WEffect × REffect
  | .RO => (.noEffect, .noEffect)
  | .RW => (.asIs, .noEffect)
  | .RC => (.noEffect, .clears)
  | .RS => (.noEffect, .sets)
  | .WRC => (.asIs, .clears)
  | .WRS => (.asIs, .sets)
  | .WC => (.clears, .noEffect)
  | .WS => (.sets, .noEffect)
  | .WSRC => (.sets, .clears)
  | .WCRS => (.clears, .sets)
  | .W1C => (.oneClears, .noEffect)
  | .W1S => (.oneSets, .noEffect)
  | .W1T => (.oneToggles, .noEffect)
  | .W0C => (.zeroClears, .noEffect)
  | .W0S => (.zeroSets, .noEffect)
  | .W0T => (.zeroToggles, .noEffect)
  | .W1SRC => (.oneSets, .clears)
  | .W1CRS => (.oneClears, .sets)
  | .W0SRC => (.zeroSets, .clears)
  | .W0CRS => (.zeroClears, .sets)
  | .WO => (.asIs, .error)
  | .WOC => (.clears, .error)
  | .WOS => (.sets, .error)
  | .W1 => (.firstAsIs, .noEffect)
  | .WO1 => (.firstAsIs, .error)
  | .NOACCESS => (.noEffect, .noEffect)
  | .user _ => (.asIs, .noEffect)

/-- One bit after a write. -/
def WEffect.bit (written : Bool) (cur wr : Bool) : WEffect → Bool
  | .noEffect => cur
  | .asIs => wr
  | .clears => false
  | .sets => true
  | .oneClears => if wr then false else cur
  | .oneSets => if wr then true else cur
  | .oneToggles => if wr then !cur else cur
  | .zeroClears => if wr then cur else false
  | .zeroSets => if wr then cur else true
  | .zeroToggles => if wr then cur else !cur
  | .firstAsIs => if written then cur else wr

/-- `r` is the field value (of `n` bits) that the documented effect of writing `wr` over `cur` gives. -/
def IsWriteResult (n : Nat) (e : WEffect) (written : Bool) (cur wr r : Nat) : Prop :=
  r < 2 ^ n ∧ ∀ i, i < n → r.testBit i = e.bit written (cur.testBit i) (wr.testBit i)

/-- Bit `i` of a Python integer (two's complement). -/
def intBit (v : Int) (i : Nat) : Bool := (v / (2 ^ i : Nat)) % 2 == 1

end Verif.RegField
