import Verif.Model.RegSystem
import Verif.Model.Mem
import Verif.Spec.Mem
/-!
# Registers and memories on one bus

Operations on registers (`Verif.Model.RegSystem`, uvm_reg.py) and on memories (`Verif.Model.Mem`, uvm_mem.py) one after the other, down to the
same bus (uvm_reg_map.py `do_bus_write` 1317-1461, `do_bus_read` 1464-1611).
-/
namespace Verif.RegMem
open Verif.Reg Verif.RegAccess Verif.RegMap Verif.RegSystem

/-- An operation on register `i` or memory `j`. -/
inductive Op (n m : Nat) where
  | reg (i : Fin n) (o : RegAccess.Op)
  | mem (j : Fin m) (o : Mem.Op)

/-- What its caller sees. -/
inductive Ans (n m : Nat) where
  | reg (i : Fin n) (o : Out)
  | mem (j : Fin m) (r : Mem.Res)

/-- One operation; `none`: exception. -/
def step {n m : Nat} {σ} (bus : Bus σ) (order : Order) (w : Nat) (ports : Fin n → Port) (mems : Fin m → Mem.Env σ) (st : RegSystem.State n σ) :
    Op n m → Option (RegSystem.State n σ × Ans n m)
  | .reg i o => (RegSystem.step ports (onBus bus order w ports) st (i, o)).map fun q => (q.1, .reg i q.2)
  | .mem j o => (Mem.exec (mems j) st.dev o).map fun q => ({ st with dev := q.1 }, .mem j q.2)

/-- A history. -/
def run {n m : Nat} {σ} (bus : Bus σ) (order : Order) (w : Nat) (ports : Fin n → Port) (mems : Fin m → Mem.Env σ) :
    RegSystem.State n σ → List (Op n m) → Option (RegSystem.State n σ × List (Ans n m))
  | st, [] => some (st, [])
  | st, op :: ops => (step bus order w ports mems st op).bind fun q => (run bus order w ports mems q.1 ops).map fun z => (z.1, q.2 :: z.2)

end Verif.RegMem
