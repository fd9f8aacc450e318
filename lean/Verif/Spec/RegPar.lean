import Verif.Model.RegPar
import Verif.Spec.RegSystem
import Verif.Spec.RegChip
/-! # Specification vocabulary for processes that access registers at the same time -/
namespace Verif.RegPar
open Verif.Reg Verif.RegAccess Verif.RegMap Verif.RegSystem Verif.RegConc

/-- The operations on one register one after the other, each whole, with nothing else on the bus: the register, what is behind the bus and what the
callers saw; `none`: exception. -/
def solo {σ} (bus : Bus σ) (order : Order) (w : Nat) (p : Port) : Reg → σ → List RegAccess.Op → Option (Reg × σ × List Out)
  | r, s, [] => some (r, s, [])
  | r, s, op :: ops => (access p (regDev bus order w r.nBits p.addrs) r s op).bind fun q =>
      (solo bus order w p q.1 q.2.1 ops).map fun z => (z.1, z.2.1, q.2.2 :: z.2.2)

/-- The operations asked for on register `i`. -/
def asked {n : Nat} (i : Fin n) (evs : List (Ev n)) : List RegAccess.Op :=
  evs.filterMap fun | .ask j op => if j = i then some op else none | .go _ => none

/-- How often register `i` went on. -/
def goes {n : Nat} (i : Fin n) (evs : List (Ev n)) : Nat :=
  (evs.filter fun | .ask _ _ => false | .go j => decide (j = i)).length

/-- No operation is under way or waiting. -/
def Task.idle (t : Task) : Prop := t.queue = [] ∧ t.cur = none

/-- The register with nothing under way. -/
def fresh (r : Reg) : Task := { reg := r }

end Verif.RegPar
