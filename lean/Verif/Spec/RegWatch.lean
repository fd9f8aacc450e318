import Verif.Model.RegWatch
import Verif.Spec.RegChip
import Verif.Spec.RegPredictor
/-! # Specification vocabulary for explicit prediction with several bus masters -/
namespace Verif.RegWatch
open Verif.Reg Verif.RegField Verif.RegAccess Verif.RegMap Verif.RegSystem Verif.RegPredictor

/-- The event is an operation on register `r` or a bus operation at one of its addresses. -/
def Concerns (c : Conf) (r : Nat) : Ev → Bool
  | .op r' _ => r' == r
  | .beat op => decide (op.addr ∈ c.addrs r)

/-- One whole transfer of a register on the bus: each of its addresses once, in any order, all reads or all writes of words of the width of the bus. -/
structure IsTransfer (w : Nat) (addrs : List Nat) (ops : List BusOp) : Prop where
  once : (ops.map (·.addr)).Perm addrs
  same : ∀ a ∈ ops, ∀ b ∈ ops, a.kind = b.kind
  width : ∀ a ∈ ops, a.data < 2 ^ (8 * w)

/-- Other masters transfer the register as a whole: operations through the model and whole transfers follow each other. -/
inductive Whole (w : Nat) (addrs : List Nat) : List Ev → Prop
  | nil : Whole w addrs []
  | op {r o es} : Whole w addrs es → Whole w addrs (.op r o :: es)
  | transfer {ops es} : IsTransfer w addrs ops → Whole w addrs es → Whole w addrs (ops.map .beat ++ es)

/-- The map finds each register under each of its addresses, for reads and for writes, and nothing else. -/
def Mapped (c : Conf) : Prop := ∀ a read r, c.rg a read = some r ↔ a ∈ c.addrs r

/-- Front-door accesses with nothing in their way, the map does not predict by itself. -/
structure Explicit (p : Port) : Prop where
  rw : p.cfg.route = .front .RW
  auto : p.cfg.auto = false
  bare : ∀ k, p.cfg.bare k = false
  preW : Quiet p.preW
  postW : Quiet p.postW
  preR : Quiet p.preR
  postR : Quiet p.postR

end Verif.RegWatch
