import Verif.Model.RegSystem
import Verif.Model.RegPredictor
/-!
# Explicit prediction: the accesses of a register model and a bus monitor that feeds `UVMRegPredictor`

`UVMReg.write`, `read`, ... of `Verif.Model.RegSystem` with `auto_predict` off (uvm_reg.py 1509-1517, 1711-1723 are skipped) and
`UVMRegPredictor.write` (uvm_reg_predictor.py 143-247, `Verif.Model.RegPredictor`) share the registers.  The monitor and the adapter's
`bus2reg` are user code: taken to report every operation that was on the bus, in order, with the data transferred and no byte enables.
The predictor is taken to see the operations of an access of the model before that access returns; in between the register is busy,
which only direct predictions look at (uvm_reg.py `do_predict`).
-/
namespace Verif.RegWatch
open Verif.Reg Verif.RegField Verif.RegAccess Verif.RegMap Verif.RegSystem Verif.RegPredictor

/-- A bus with a monitor: what it reports comes after what it reported before. -/
def watched {σ} (bus : Bus σ) : Bus (σ × List Beat) := fun s op =>
  let r := bus s.1 op
  ((r.1, s.2 ++ [⟨decide (op.kind = .read), op.addr, if op.kind = .read then r.2.1 else op.data, -1⟩]), r.2)

/-- The registers with the state of the predictor, and what is behind the bus. -/
structure Sys (σ : Type) where
  st : RegPredictor.St
  dev : σ

/-- An operation on a register through the model, or a bus operation of some other master. -/
inductive Ev where
  | op (r : Nat) (o : RegAccess.Op)
  | beat (op : BusOp)

/-- One event; `none`: exception. -/
def step {σ} (c : Conf) (bus : Bus σ) (order : Order) (ports : Nat → Port) (y : Sys σ) : Ev → Option (Sys σ × List (Nat × Out))
  | .op r o =>
    (access (ports r) (regDev (watched bus) order c.w (y.st.regs r).nBits (c.addrs r)) (y.st.regs r) (y.dev, []) o).bind fun q =>
      (RegPredictor.run c { y.st with regs := fun x => if x = r then q.1 else y.st.regs x } q.2.1.2).map fun t => (⟨t, q.2.1.1⟩, [(r, q.2.2)])
  | .beat op =>
    let q := (watched bus (y.dev, []) op).1
    (RegPredictor.run c y.st q.2).map fun t => (⟨t, q.1⟩, [])

/-- A history, with what the callers saw. -/
def run {σ} (c : Conf) (bus : Bus σ) (order : Order) (ports : Nat → Port) : Sys σ → List Ev → Option (Sys σ × List (Nat × Out))
  | y, [] => some (y, [])
  | y, e :: es => (step c bus order ports y e).bind fun q => (run c bus order ports q.1 es).map fun z => (z.1, q.2 ++ z.2)

end Verif.RegWatch
